import Verif.Syntax
import Verif.SpecSolver
import Verif.Props.Expr
/-!
# C68: a formula written in Python means what it says

The meaning of a formula is its value when the names are numbers. A program writes the formula with variables instead, and the library evaluates the resulting object later.
-/

namespace Satisfy.Props

variable {ρ : Store} {σ : Subst}

/-- What the formula says when the names are numbers; `none` if it divides by zero or has a negative exponent. `/` is floor division. Conditions have the values 0 and 1. -/
def meaning (val : Name → Int) : Src → Option Int
  | .lit n => some n
  | .name x => some (val x)
  | .neg a => do return -(← meaning val a)
  | .abs a => do return |← meaning val a|
  | .pos a => meaning val a
  | .add a b => do return (← meaning val a) + (← meaning val b)
  | .sub a b => do return (← meaning val a) - (← meaning val b)
  | .mul a b => do return (← meaning val a) * (← meaning val b)
  | .div a b => do
    let x ← meaning val a
    let y ← meaning val b
    if y = 0 then none else some (x.fdiv y)
  | .mod a b => do
    let x ← meaning val a
    let y ← meaning val b
    if y = 0 then none else some (x.fmod y)
  | .pow a b => do
    let x ← meaning val a
    let y ← meaning val b
    if y < 0 then none else some (x ^ y.toNat)
  | .cmp c a b => do return if c.holds (← meaning val a) (← meaning val b) then 1 else 0
  | .amp a b => do
    let x ← meaning val a
    let y ← meaning val b
    return if x ≠ 0 ∧ y ≠ 0 then 1 else 0
  | .bar a b => do
    let x ← meaning val a
    let y ← meaning val b
    return if x ≠ 0 ∨ y ≠ 0 then 1 else 0
  | .chain c₁ c₂ a b d => do
    let x ← meaning val a
    let y ← meaning val b
    let z ← meaning val d
    return if c₁.holds x y ∧ c₂.holds y z then 1 else 0
  | .both a b => do
    let x ← meaning val a
    let y ← meaning val b
    return if x ≠ 0 then y else x
  | .either a b => do
    let x ← meaning val a
    let y ← meaning val b
    return if x ≠ 0 then x else y
  | .no a => do return if (← meaning val a) ≠ 0 then 0 else 1
  | .cond c a b => do
    let x ← meaning val c
    let y ← meaning val a
    let z ← meaning val b
    return if x ≠ 0 then y else z
  | .max a b => do return Max.max (← meaning val a) (← meaning val b)
  | .min a b => do return Min.min (← meaning val a) (← meaning val b)

/-- The names in a formula. -/
def names : Src → List Name
  | .lit _ => []
  | .name x => [x]
  | .neg a | .abs a | .pos a | .no a => names a
  | .add a b | .sub a b | .mul a b | .div a b | .mod a b | .pow a b | .cmp _ a b | .amp a b | .bar a b | .both a b | .either a b | .max a b | .min a b =>
    names a ++ names b
  | .chain _ _ a b d | .cond a b d => names a ++ names b ++ names d

/-! ## The part of the language for which it is true -/

/-- No names in it. -/
def closed : Src → Bool
  | .lit _ => true
  | .name _ => false
  | .neg a | .abs a | .pos a | .no a => closed a
  | .add a b | .sub a b | .mul a b | .div a b | .mod a b | .pow a b | .cmp _ a b | .amp a b | .bar a b | .both a b | .either a b | .max a b | .min a b =>
    closed a && closed b
  | .chain _ _ a b d => closed a && closed b && closed d
  | .cond c a b => closed c && closed a && closed b

/-- An arithmetic formula with a name. -/
def hasName : Src → Bool
  | .name _ => true
  | .neg a | .abs a | .pos a => hasName a
  | .add a b | .sub a b | .mul a b | .mod a b | .pow a b => hasName a || hasName b
  | .div a _ => hasName a
  | _ => false

/-- A comparison, or such combined with `&` and `|`. -/
def condition : Src → Bool
  | .cmp _ _ _ | .chain _ _ _ _ _ | .no _ => true
  | .amp a b | .bar a b => condition a && condition b
  | _ => false

/-- Allowed are: arithmetic and single comparisons without limits, except that a divisor `/` needs a name on its left; `&` and `|` between conditions; and what asks for the truth of something, if
there is no name in this. -/
def allowed : Src → Bool
  | .lit _ | .name _ => true
  | .neg a | .abs a | .pos a => allowed a
  | .add a b | .sub a b | .mul a b | .mod a b | .pow a b | .cmp _ a b => allowed a && allowed b
  | .div a b => allowed a && allowed b && hasName a
  | .amp a b | .bar a b => allowed a && allowed b && condition a && condition b
  | .chain _ _ a b d => allowed a && allowed b && allowed d && closed a && closed b
  | .both a b | .either a b => allowed a && allowed b && closed a
  | .no a => allowed a && closed a
  | .cond c a b => allowed c && allowed a && allowed b && closed c
  | .max a b | .min a b => allowed a && allowed b && closed a && closed b

theorem bit_and {x y : Int} (hx : x = 0 ∨ x = 1) (hy : y = 0 ∨ y = 1) : pyBitAnd x y = if x ≠ 0 ∧ y ≠ 0 then 1 else 0 := by
  rcases hx with rfl | rfl <;> rcases hy with rfl | rfl <;> decide

theorem bit_or {x y : Int} (hx : x = 0 ∨ x = 1) (hy : y = 0 ∨ y = 1) : pyBitOr x y = if x ≠ 0 ∨ y ≠ 0 then 1 else 0 := by
  rcases hx with rfl | rfl <;> rcases hy with rfl | rfl <;> decide

theorem and_01 {x y : Int} (hx : x = 0 ∨ x = 1) (hy : y = 0 ∨ y = 1) : (if x ≠ 0 then y else x) = if x ≠ 0 ∧ y ≠ 0 then 1 else 0 := by
  rcases hx with rfl | rfl <;> rcases hy with rfl | rfl <;> decide

theorem or_01 {x y : Int} (hx : x = 0 ∨ x = 1) (hy : y = 0 ∨ y = 1) : (if x ≠ 0 then x else y) = if x ≠ 0 ∨ y ≠ 0 then 1 else 0 := by
  rcases hx with rfl | rfl <;> rcases hy with rfl | rfl <;> decide

theorem condition_01 {val : Name → Int} {s : Src} (hc : condition s = true) {v : Int} (hv : meaning val s = some v) : v = 0 ∨ v = 1 := by
  have ite01 : ∀ (p : Prop) [Decidable p], (if p then (1 : Int) else 0) = 0 ∨ (if p then (1 : Int) else 0) = 1 := by
    intro p _
    by_cases h : p <;> simp [h]
  cases s <;> simp only [condition, Bool.false_eq_true] at hc <;> simp only [meaning, Option.bind_eq_bind, Option.bind_eq_some_iff] at hv
  case cmp => obtain ⟨x, _, y, _, h⟩ := hv; cases h; exact ite01 _
  case amp => obtain ⟨x, _, y, _, h⟩ := hv; cases h; exact ite01 _
  case bar => obtain ⟨x, _, y, _, h⟩ := hv; cases h; exact ite01 _
  case chain => obtain ⟨x, _, y, _, z, _, h⟩ := hv; cases h; exact ite01 _
  case no =>
    obtain ⟨x, _, h⟩ := hv
    cases h
    by_cases h : x ≠ 0 <;> simp [h]

/-- A formula without names is computed by Python on the spot. -/
theorem closed_obj {val : Name → Int} (env : Name → Obj) (s : Src) (hc : closed s = true) (ha : allowed s = true) {v : Int} (hv : meaning val s = some v) :
    s.obj env = .ok (.int v) := by
  induction s generalizing v with
  | lit n => simp only [meaning, Option.some.injEq] at hv; subst hv; rfl
  | name x => cases hc
  | neg a ih =>
    simp only [meaning, Option.bind_eq_bind, Option.bind_eq_some_iff] at hv
    obtain ⟨x, hx, h⟩ := hv
    cases h
    simp [Src.obj, ih hc ha hx, Obj.neg]
  | abs a ih =>
    simp only [meaning, Option.bind_eq_bind, Option.bind_eq_some_iff] at hv
    obtain ⟨x, hx, h⟩ := hv
    cases h
    simp [Src.obj, ih hc ha hx, Obj.abs, pyAbs, Int.abs_eq_natAbs]
  | pos a ih =>
    simp only [meaning] at hv
    simp [Src.obj, ih hc ha hv, Obj.pos]
  | add a b iha ihb =>
    simp only [meaning, Option.bind_eq_bind, Option.bind_eq_some_iff] at hv
    simp only [closed, allowed, Bool.and_eq_true] at hc ha
    obtain ⟨x, hx, y, hy, h⟩ := hv
    cases h
    simp [Src.obj, iha hc.1 ha.1 hx, ihb hc.2 ha.2 hy, Obj.add]
  | sub a b iha ihb =>
    simp only [meaning, Option.bind_eq_bind, Option.bind_eq_some_iff] at hv
    simp only [closed, allowed, Bool.and_eq_true] at hc ha
    obtain ⟨x, hx, y, hy, h⟩ := hv
    cases h
    simp [Src.obj, iha hc.1 ha.1 hx, ihb hc.2 ha.2 hy, Obj.sub]
  | mul a b iha ihb =>
    simp only [meaning, Option.bind_eq_bind, Option.bind_eq_some_iff] at hv
    simp only [closed, allowed, Bool.and_eq_true] at hc ha
    obtain ⟨x, hx, y, hy, h⟩ := hv
    cases h
    simp [Src.obj, iha hc.1 ha.1 hx, ihb hc.2 ha.2 hy, Obj.mul]
  | div a b iha ihb =>
    exfalso
    simp only [closed, allowed, Bool.and_eq_true] at hc ha
    exact absurd ha.2 (by rw [show hasName a = false from closed_hasName a hc.1]; decide)
  | mod a b iha ihb =>
    simp only [meaning, Option.bind_eq_bind, Option.bind_eq_some_iff] at hv
    simp only [closed, allowed, Bool.and_eq_true] at hc ha
    obtain ⟨x, hx, y, hy, h⟩ := hv
    split at h
    · cases h
    · rename_i hy0
      cases h
      simp [Src.obj, iha hc.1 ha.1 hx, ihb hc.2 ha.2 hy, Obj.mod, pyMod, hy0]
  | pow a b iha ihb =>
    simp only [meaning, Option.bind_eq_bind, Option.bind_eq_some_iff] at hv
    simp only [closed, allowed, Bool.and_eq_true] at hc ha
    obtain ⟨x, hx, y, hy, h⟩ := hv
    split at h
    · cases h
    · rename_i hy0
      cases h
      simp [Src.obj, iha hc.1 ha.1 hx, ihb hc.2 ha.2 hy, Obj.pow, pyPow, hy0]
  | cmp c a b iha ihb =>
    simp only [meaning, Option.bind_eq_bind, Option.bind_eq_some_iff] at hv
    simp only [closed, allowed, Bool.and_eq_true] at hc ha
    obtain ⟨x, hx, y, hy, h⟩ := hv
    cases h
    simp [Src.obj, iha hc.1 ha.1 hx, ihb hc.2 ha.2 hy, Obj.cmp, ofBool]
  | amp a b iha ihb =>
    simp only [meaning, Option.bind_eq_bind, Option.bind_eq_some_iff] at hv
    simp only [closed, allowed, Bool.and_eq_true] at hc ha
    obtain ⟨x, hx, y, hy, h⟩ := hv
    cases h
    simp only [Src.obj, iha hc.1 ha.1.1.1 hx, ihb hc.2 ha.1.1.2 hy, Obj.and, bind, Except.bind, pure, Except.pure,
      bit_and (condition_01 ha.1.2 hx) (condition_01 ha.2 hy)]
  | bar a b iha ihb =>
    simp only [meaning, Option.bind_eq_bind, Option.bind_eq_some_iff] at hv
    simp only [closed, allowed, Bool.and_eq_true] at hc ha
    obtain ⟨x, hx, y, hy, h⟩ := hv
    cases h
    simp only [Src.obj, iha hc.1 ha.1.1.1 hx, ihb hc.2 ha.1.1.2 hy, Obj.or, bind, Except.bind, pure, Except.pure,
      bit_or (condition_01 ha.1.2 hx) (condition_01 ha.2 hy)]
  | chain c₁ c₂ a b d iha ihb ihd =>
    simp only [meaning, Option.bind_eq_bind, Option.bind_eq_some_iff] at hv
    simp only [closed, allowed, Bool.and_eq_true] at hc ha
    obtain ⟨x, hx, y, hy, z, hz, h⟩ := hv
    cases h
    simp only [Src.obj, iha hc.1.1 ha.1.1.1.1 hx, ihb hc.1.2 ha.1.1.1.2 hy, ihd hc.2 ha.1.1.2 hz, Obj.cmp, Obj.truth, truthy_ofBool, bind, Except.bind, pure, Except.pure]
    by_cases h1 : c₁.holds x y = true <;> simp [h1, ofBool]
  | both a b iha ihb =>
    simp only [meaning, Option.bind_eq_bind, Option.bind_eq_some_iff] at hv
    simp only [closed, allowed, Bool.and_eq_true] at hc ha
    obtain ⟨x, hx, y, hy, h⟩ := hv
    cases h
    by_cases h1 : x = 0 <;> simp [Src.obj, iha hc.1 ha.1.1 hx, ihb hc.2 ha.1.2 hy, Obj.truth, truthy, h1]
  | either a b iha ihb =>
    simp only [meaning, Option.bind_eq_bind, Option.bind_eq_some_iff] at hv
    simp only [closed, allowed, Bool.and_eq_true] at hc ha
    obtain ⟨x, hx, y, hy, h⟩ := hv
    cases h
    by_cases h1 : x = 0 <;> simp [Src.obj, iha hc.1 ha.1.1 hx, ihb hc.2 ha.1.2 hy, Obj.truth, truthy, h1]
  | no a ih =>
    simp only [meaning, Option.bind_eq_bind, Option.bind_eq_some_iff] at hv
    simp only [closed, allowed, Bool.and_eq_true] at hc ha
    obtain ⟨x, hx, h⟩ := hv
    cases h
    by_cases h1 : x = 0 <;> simp [Src.obj, ih hc ha.1 hx, Obj.not, Obj.truth, truthy, h1, ofBool]
  | cond c a b ihc iha ihb =>
    simp only [meaning, Option.bind_eq_bind, Option.bind_eq_some_iff] at hv
    simp only [closed, allowed, Bool.and_eq_true] at hc ha
    obtain ⟨x, hx, y, hy, z, hz, h⟩ := hv
    cases h
    by_cases h1 : x = 0 <;> simp [Src.obj, ihc hc.1.1 ha.1.1.1 hx, iha hc.1.2 ha.1.1.2 hy, ihb hc.2 ha.1.2 hz, Obj.truth, truthy, h1]
  | max a b iha ihb =>
    simp only [meaning, Option.bind_eq_bind, Option.bind_eq_some_iff] at hv
    simp only [closed, allowed, Bool.and_eq_true] at hc ha
    obtain ⟨x, hx, y, hy, h⟩ := hv
    cases h
    by_cases h1 : y > x
    · simp [Src.obj, iha hc.1 ha.1.1.1 hx, ihb hc.2 ha.1.1.2 hy, Obj.pyMax, Obj.cmp, Cmp.holds, Obj.truth, h1]
      omega
    · simp [Src.obj, iha hc.1 ha.1.1.1 hx, ihb hc.2 ha.1.1.2 hy, Obj.pyMax, Obj.cmp, Cmp.holds, Obj.truth, h1]
      omega
  | min a b iha ihb =>
    simp only [meaning, Option.bind_eq_bind, Option.bind_eq_some_iff] at hv
    simp only [closed, allowed, Bool.and_eq_true] at hc ha
    obtain ⟨x, hx, y, hy, h⟩ := hv
    cases h
    by_cases h1 : y < x
    · simp [Src.obj, iha hc.1 ha.1.1.1 hx, ihb hc.2 ha.1.1.2 hy, Obj.pyMin, Obj.cmp, Cmp.holds, Obj.truth, h1]
      omega
    · simp [Src.obj, iha hc.1 ha.1.1.1 hx, ihb hc.2 ha.1.1.2 hy, Obj.pyMin, Obj.cmp, Cmp.holds, Obj.truth, h1]
      omega
where
  closed_hasName : ∀ a : Src, closed a = true → hasName a = false := by
    intro a
    induction a <;> simp_all [closed, hasName]

/-- Arithmetic with a name gives an expression object. -/
theorem hasName_expr {env : Name → Obj} (s : Src) (henv : ∀ x ∈ names s, ∃ e, env x = .expr e) (hn : hasName s = true) {o : Obj} (ho : s.obj env = .ok o) :
    ∃ e, o = .expr e := by
  have two : ∀ {a b : Src} {x y : Obj}, (hasName a = true → a.obj env = .ok x → ∃ e, x = .expr e) → (hasName b = true → b.obj env = .ok y → ∃ e, y = .expr e) →
      (hasName a || hasName b) = true → a.obj env = .ok x → b.obj env = .ok y → (∃ e, x = .expr e) ∨ ∃ e, y = .expr e := by
    intro a b x y iha ihb hn hx hy
    rcases Bool.or_eq_true _ _ ▸ hn with h | h
    · exact .inl (iha h hx)
    · exact .inr (ihb h hy)
  induction s generalizing o with
  | name x =>
    cases ho
    exact henv x (by simp [names])
  | neg a ih =>
    simp only [Src.obj, bind, Except.bind, pure, Except.pure] at ho
    split at ho
    · cases ho
    · rename_i x hx
      obtain ⟨e, rfl⟩ := ih (fun z hz => henv z (by simp [names, hz])) hn hx
      cases ho
      exact ⟨_, rfl⟩
  | abs a ih =>
    simp only [Src.obj, bind, Except.bind, pure, Except.pure] at ho
    split at ho
    · cases ho
    · rename_i x hx
      obtain ⟨e, rfl⟩ := ih (fun z hz => henv z (by simp [names, hz])) hn hx
      cases ho
      exact ⟨_, rfl⟩
  | pos a ih =>
    simp only [Src.obj, bind, Except.bind, pure, Except.pure] at ho
    split at ho
    · cases ho
    · rename_i x hx
      obtain ⟨e, rfl⟩ := ih (fun z hz => henv z (by simp [names, hz])) hn hx
      cases ho
      exact ⟨_, rfl⟩
  | add a b iha ihb =>
    simp only [Src.obj, bind, Except.bind, pure, Except.pure] at ho
    split at ho
    · cases ho
    · rename_i x hx
      split at ho
      · cases ho
      · rename_i y hy
        cases ho
        rcases two (fun h h' => iha (fun z hz => henv z (by simp [names, hz])) h h') (fun h h' => ihb (fun z hz => henv z (by simp [names, hz])) h h') hn hx hy with ⟨e, rfl⟩ | ⟨e, rfl⟩
        · cases y <;> exact ⟨_, rfl⟩
        · cases x <;> exact ⟨_, rfl⟩
  | sub a b iha ihb =>
    simp only [Src.obj, bind, Except.bind, pure, Except.pure] at ho
    split at ho
    · cases ho
    · rename_i x hx
      split at ho
      · cases ho
      · rename_i y hy
        cases ho
        rcases two (fun h h' => iha (fun z hz => henv z (by simp [names, hz])) h h') (fun h h' => ihb (fun z hz => henv z (by simp [names, hz])) h h') hn hx hy with ⟨e, rfl⟩ | ⟨e, rfl⟩
        · cases y <;> exact ⟨_, rfl⟩
        · cases x <;> exact ⟨_, rfl⟩
  | mul a b iha ihb =>
    simp only [Src.obj, bind, Except.bind, pure, Except.pure] at ho
    split at ho
    · cases ho
    · rename_i x hx
      split at ho
      · cases ho
      · rename_i y hy
        cases ho
        rcases two (fun h h' => iha (fun z hz => henv z (by simp [names, hz])) h h') (fun h h' => ihb (fun z hz => henv z (by simp [names, hz])) h h') hn hx hy with ⟨e, rfl⟩ | ⟨e, rfl⟩
        · cases y <;> exact ⟨_, rfl⟩
        · cases x <;> exact ⟨_, rfl⟩
  | mod a b iha ihb =>
    simp only [Src.obj, bind, Except.bind] at ho
    split at ho
    · cases ho
    · rename_i x hx
      split at ho
      · cases ho
      · rename_i y hy
        rcases two (fun h h' => iha (fun z hz => henv z (by simp [names, hz])) h h') (fun h h' => ihb (fun z hz => henv z (by simp [names, hz])) h h') hn hx hy with ⟨e, rfl⟩ | ⟨e, rfl⟩
        · simp only [Obj.mod] at ho
          cases h : e.pyMod y <;> rw [h] at ho <;> cases ho
          exact ⟨_, rfl⟩
        · cases x with
          | int n =>
            simp only [Obj.mod] at ho
            cases h : (Expr.const n).pyMod (.expr e) <;> rw [h] at ho <;> cases ho
            exact ⟨_, rfl⟩
          | expr e' =>
            simp only [Obj.mod] at ho
            cases h : e'.pyMod (.expr e) <;> rw [h] at ho <;> cases ho
            exact ⟨_, rfl⟩
  | pow a b iha ihb =>
    simp only [Src.obj, bind, Except.bind] at ho
    split at ho
    · cases ho
    · rename_i x hx
      split at ho
      · cases ho
      · rename_i y hy
        rcases two (fun h h' => iha (fun z hz => henv z (by simp [names, hz])) h h') (fun h h' => ihb (fun z hz => henv z (by simp [names, hz])) h h') hn hx hy with ⟨e, rfl⟩ | ⟨e, rfl⟩
        · simp only [Obj.pow] at ho
          cases h : e.pyPow y <;> rw [h] at ho <;> cases ho
          exact ⟨_, rfl⟩
        · cases x with
          | int n =>
            simp only [Obj.pow] at ho
            cases h : (Expr.const n).pyPow (.expr e) <;> rw [h] at ho <;> cases ho
            exact ⟨_, rfl⟩
          | expr e' =>
            simp only [Obj.pow] at ho
            cases h : e'.pyPow (.expr e) <;> rw [h] at ho <;> cases ho
            exact ⟨_, rfl⟩
  | div a b iha ihb =>
    simp only [Src.obj, bind, Except.bind] at ho
    split at ho
    · cases ho
    · rename_i x hx
      split at ho
      · cases ho
      · rename_i y hy
        obtain ⟨e, rfl⟩ := iha (fun z hz => henv z (by simp [names, hz])) hn hx
        simp only [Obj.div] at ho
        cases h : e.pyDiv y <;> rw [h] at ho <;> cases ho
        exact ⟨_, rfl⟩
  | _ => cases hn

/-- **C68 for the allowed formulas.** Let the names in it stand for expressions, of any kind, whose values are the numbers `val`. If the formula means the number `v`, then building the object does
not fail and the object evaluates to `v`. -/
theorem C68_partial {val : Name → Int} {env : Name → Obj} (s : Src) (henv : ∀ x ∈ names s, ∃ e, env x = .expr e ∧ e.eval ρ σ = .ok (val x)) (ha : allowed s = true)
    {v : Int} (hv : meaning val s = some v) : ∃ o, s.obj env = .ok o ∧ o.eval ρ σ = .ok v := by
  induction s generalizing v with
  | lit n =>
    cases hv
    exact ⟨_, rfl, rfl⟩
  | name x =>
    cases hv
    obtain ⟨e, h1, h2⟩ := henv x (by simp [names])
    exact ⟨_, rfl, by rw [h1]; exact h2⟩
  | neg a ih =>
    simp only [meaning, Option.bind_eq_bind, Option.bind_eq_some_iff] at hv
    obtain ⟨x, hx, h⟩ := hv
    cases h
    obtain ⟨o, h1, h2⟩ := ih (fun z hz => henv z (by simp [names, hz])) ha hx
    exact ⟨_, by simp [Src.obj, h1], C01_neg h2⟩
  | abs a ih =>
    simp only [meaning, Option.bind_eq_bind, Option.bind_eq_some_iff] at hv
    obtain ⟨x, hx, h⟩ := hv
    cases h
    obtain ⟨o, h1, h2⟩ := ih (fun z hz => henv z (by simp [names, hz])) ha hx
    exact ⟨_, by simp [Src.obj, h1], C01_abs h2⟩
  | pos a ih =>
    obtain ⟨o, h1, h2⟩ := ih (fun z hz => henv z (by simp [names, hz])) ha hv
    exact ⟨_, by simp [Src.obj, h1]; rfl, h2⟩
  | add a b iha ihb =>
    simp only [meaning, Option.bind_eq_bind, Option.bind_eq_some_iff] at hv
    simp only [allowed, Bool.and_eq_true] at ha
    obtain ⟨x, hx, y, hy, h⟩ := hv
    cases h
    obtain ⟨o, h1, h2⟩ := iha (fun z hz => henv z (by simp [names, hz])) ha.1 hx
    obtain ⟨o', h3, h4⟩ := ihb (fun z hz => henv z (by simp [names, hz])) ha.2 hy
    exact ⟨_, by simp [Src.obj, h1, h3], C01_add h2 h4⟩
  | sub a b iha ihb =>
    simp only [meaning, Option.bind_eq_bind, Option.bind_eq_some_iff] at hv
    simp only [allowed, Bool.and_eq_true] at ha
    obtain ⟨x, hx, y, hy, h⟩ := hv
    cases h
    obtain ⟨o, h1, h2⟩ := iha (fun z hz => henv z (by simp [names, hz])) ha.1 hx
    obtain ⟨o', h3, h4⟩ := ihb (fun z hz => henv z (by simp [names, hz])) ha.2 hy
    exact ⟨_, by simp [Src.obj, h1, h3], C01_sub h2 h4⟩
  | mul a b iha ihb =>
    simp only [meaning, Option.bind_eq_bind, Option.bind_eq_some_iff] at hv
    simp only [allowed, Bool.and_eq_true] at ha
    obtain ⟨x, hx, y, hy, h⟩ := hv
    cases h
    obtain ⟨o, h1, h2⟩ := iha (fun z hz => henv z (by simp [names, hz])) ha.1 hx
    obtain ⟨o', h3, h4⟩ := ihb (fun z hz => henv z (by simp [names, hz])) ha.2 hy
    exact ⟨_, by simp [Src.obj, h1, h3], C01_mul h2 h4⟩
  | div a b iha ihb =>
    simp only [meaning, Option.bind_eq_bind, Option.bind_eq_some_iff] at hv
    simp only [allowed, Bool.and_eq_true] at ha
    obtain ⟨x, hx, y, hy, h⟩ := hv
    split at h
    · cases h
    · rename_i hy0
      cases h
      obtain ⟨o, h1, h2⟩ := iha (fun z hz => henv z (by simp [names, hz])) ha.1.1 hx
      obtain ⟨o', h3, h4⟩ := ihb (fun z hz => henv z (by simp [names, hz])) ha.1.2 hy
      obtain ⟨e, rfl⟩ := hasName_expr a (fun z hz => let ⟨e, h, _⟩ := henv z (by simp [names, hz]); ⟨e, h⟩) ha.2 h1
      obtain ⟨o'', h5, h6⟩ := C01_div h2 h4 hy0
      exact ⟨o'', by simpa [Src.obj, h1, h3] using h5, h6⟩
  | mod a b iha ihb =>
    simp only [meaning, Option.bind_eq_bind, Option.bind_eq_some_iff] at hv
    simp only [allowed, Bool.and_eq_true] at ha
    obtain ⟨x, hx, y, hy, h⟩ := hv
    split at h
    · cases h
    · rename_i hy0
      cases h
      obtain ⟨o, h1, h2⟩ := iha (fun z hz => henv z (by simp [names, hz])) ha.1 hx
      obtain ⟨o', h3, h4⟩ := ihb (fun z hz => henv z (by simp [names, hz])) ha.2 hy
      obtain ⟨o'', h5, h6⟩ := C01_mod h2 h4 hy0
      exact ⟨o'', by simpa [Src.obj, h1, h3] using h5, h6⟩
  | pow a b iha ihb =>
    simp only [meaning, Option.bind_eq_bind, Option.bind_eq_some_iff] at hv
    simp only [allowed, Bool.and_eq_true] at ha
    obtain ⟨x, hx, y, hy, h⟩ := hv
    split at h
    · cases h
    · rename_i hy0
      cases h
      obtain ⟨o, h1, h2⟩ := iha (fun z hz => henv z (by simp [names, hz])) ha.1 hx
      obtain ⟨o', h3, h4⟩ := ihb (fun z hz => henv z (by simp [names, hz])) ha.2 hy
      obtain ⟨o'', h5, h6⟩ := C01_pow h2 h4 (by omega)
      exact ⟨o'', by simpa [Src.obj, h1, h3] using h5, h6⟩
  | cmp c a b iha ihb =>
    simp only [meaning, Option.bind_eq_bind, Option.bind_eq_some_iff] at hv
    simp only [allowed, Bool.and_eq_true] at ha
    obtain ⟨x, hx, y, hy, h⟩ := hv
    cases h
    obtain ⟨o, h1, h2⟩ := iha (fun z hz => henv z (by simp [names, hz])) ha.1 hx
    obtain ⟨o', h3, h4⟩ := ihb (fun z hz => henv z (by simp [names, hz])) ha.2 hy
    exact ⟨_, by simp [Src.obj, h1, h3], C01_cmp c h2 h4⟩
  | amp a b iha ihb =>
    simp only [meaning, Option.bind_eq_bind, Option.bind_eq_some_iff] at hv
    simp only [allowed, Bool.and_eq_true] at ha
    obtain ⟨x, hx, y, hy, h⟩ := hv
    cases h
    obtain ⟨o, h1, h2⟩ := iha (fun z hz => henv z (by simp [names, hz])) ha.1.1.1 hx
    obtain ⟨o', h3, h4⟩ := ihb (fun z hz => henv z (by simp [names, hz])) ha.1.1.2 hy
    have cx := condition_01 ha.1.2 hx
    have cy := condition_01 ha.2 hy
    refine ⟨_, by simp only [Src.obj, h1, h3]; rfl, ?_⟩
    cases o with
    | expr e => rw [C01_and h2 h4 (.inl ⟨e, rfl⟩), and_01 cx cy]
    | int n => cases o' with
      | expr e => rw [C01_and h2 h4 (.inr ⟨e, rfl⟩), and_01 cx cy]
      | int m =>
        cases h2
        cases h4
        simp only [Obj.and, Obj.eval, bit_and cx cy]
  | bar a b iha ihb =>
    simp only [meaning, Option.bind_eq_bind, Option.bind_eq_some_iff] at hv
    simp only [allowed, Bool.and_eq_true] at ha
    obtain ⟨x, hx, y, hy, h⟩ := hv
    cases h
    obtain ⟨o, h1, h2⟩ := iha (fun z hz => henv z (by simp [names, hz])) ha.1.1.1 hx
    obtain ⟨o', h3, h4⟩ := ihb (fun z hz => henv z (by simp [names, hz])) ha.1.1.2 hy
    have cx := condition_01 ha.1.2 hx
    have cy := condition_01 ha.2 hy
    refine ⟨_, by simp only [Src.obj, h1, h3]; rfl, ?_⟩
    cases o with
    | expr e => rw [C01_or h2 h4 (.inl ⟨e, rfl⟩), or_01 cx cy]
    | int n => cases o' with
      | expr e => rw [C01_or h2 h4 (.inr ⟨e, rfl⟩), or_01 cx cy]
      | int m =>
        cases h2
        cases h4
        simp only [Obj.or, Obj.eval, bit_or cx cy]
  | chain c₁ c₂ a b d iha ihb ihd =>
    simp only [meaning, Option.bind_eq_bind, Option.bind_eq_some_iff] at hv
    simp only [allowed, Bool.and_eq_true] at ha
    obtain ⟨x, hx, y, hy, z, hz, h⟩ := hv
    cases h
    obtain ⟨o, h1, h2⟩ := ihd (fun z hz => henv z (by simp [names, hz])) ha.1.1.2 hz
    have ka := closed_obj env a ha.1.2 ha.1.1.1.1 hx
    have kb := closed_obj env b ha.2 ha.1.1.1.2 hy
    by_cases hc : c₁.holds x y = true
    · exact ⟨Obj.cmp c₂ (.int y) o, by simp [Src.obj, ka, kb, h1, Obj.cmp, Obj.truth, hc],
        by rw [C01_cmp c₂ (show (Obj.int y).eval ρ σ = .ok y from rfl) h2]; by_cases h5 : c₂.holds y z = true <;> simp [hc, h5]⟩
    · exact ⟨.int 0, by simp [Src.obj, ka, kb, Obj.cmp, Obj.truth, hc, ofBool, truthy], by simp [Obj.eval, hc]⟩
  | both a b iha ihb =>
    simp only [meaning, Option.bind_eq_bind, Option.bind_eq_some_iff] at hv
    simp only [allowed, Bool.and_eq_true] at ha
    obtain ⟨x, hx, y, hy, h⟩ := hv
    cases h
    obtain ⟨o, h1, h2⟩ := ihb (fun z hz => henv z (by simp [names, hz])) ha.1.2 hy
    have ka := closed_obj env a ha.2 ha.1.1 hx
    by_cases hc : x = 0
    · exact ⟨.int x, by simp [Src.obj, ka, Obj.truth, truthy, hc], by simp [Obj.eval, hc]⟩
    · exact ⟨o, by simp [Src.obj, ka, h1, Obj.truth, truthy, hc], by simp [h2, hc]⟩
  | either a b iha ihb =>
    simp only [meaning, Option.bind_eq_bind, Option.bind_eq_some_iff] at hv
    simp only [allowed, Bool.and_eq_true] at ha
    obtain ⟨x, hx, y, hy, h⟩ := hv
    cases h
    obtain ⟨o, h1, h2⟩ := ihb (fun z hz => henv z (by simp [names, hz])) ha.1.2 hy
    have ka := closed_obj env a ha.2 ha.1.1 hx
    by_cases hc : x = 0
    · exact ⟨o, by simp [Src.obj, ka, h1, Obj.truth, truthy, hc], by simp [h2, hc]⟩
    · exact ⟨.int x, by simp [Src.obj, ka, Obj.truth, truthy, hc], by simp [Obj.eval, hc]⟩
  | no a ih =>
    simp only [allowed, Bool.and_eq_true] at ha
    exact ⟨.int v, closed_obj env (.no a) ha.2 (by simp [allowed, ha]) hv, rfl⟩
  | cond c a b ihc iha ihb =>
    simp only [meaning, Option.bind_eq_bind, Option.bind_eq_some_iff] at hv
    simp only [allowed, Bool.and_eq_true] at ha
    obtain ⟨x, hx, y, hy, z, hz, h⟩ := hv
    cases h
    obtain ⟨o, h1, h2⟩ := iha (fun z hz => henv z (by simp [names, hz])) ha.1.1.2 hy
    obtain ⟨o', h3, h4⟩ := ihb (fun z hz => henv z (by simp [names, hz])) ha.1.2 hz
    have kc := closed_obj env c ha.2 ha.1.1.1 hx
    by_cases hc : x = 0
    · exact ⟨o', by simp [Src.obj, kc, h3, Obj.truth, truthy, hc], by simp [h4, hc]⟩
    · exact ⟨o, by simp [Src.obj, kc, h1, Obj.truth, truthy, hc], by simp [h2, hc]⟩
  | max a b iha ihb =>
    simp only [allowed, Bool.and_eq_true] at ha
    exact ⟨.int v, closed_obj env (.max a b) (by simp [closed, ha]) (by simp [allowed, ha]) hv, rfl⟩
  | min a b iha ihb =>
    simp only [allowed, Bool.and_eq_true] at ha
    exact ⟨.int v, closed_obj env (.min a b) (by simp [closed, ha]) (by simp [allowed, ha]) hv, rfl⟩

/-- The names stand for the variables of the same name. -/
def asVariables : Name → Obj := fun x => .expr (.var x)

/-- As a constraint: an allowed formula over variables holds at an assignment exactly if what it says is true there (for a constraint object that has not been compiled; for compiled ones see C05
and C06). -/
theorem C68_constraint {val : Name → Int} (h : Heap) (s : Src) (ha : allowed s = true) {e : Expr} (he : s.obj asVariables = .ok (.expr e)) (i : Nat)
    (hi : h.fns i = none) (hσ : ∀ x ∈ names s, σ.get? x = some (val x)) {v : Int} (hv : meaning val s = some v) : Holds h ⟨i, .expr e⟩ σ ↔ v ≠ 0 := by
  obtain ⟨o, h1, h2⟩ := C68_partial (ρ := h.params) (σ := σ) (val := val) (env := asVariables) s (fun x hx => ⟨_, rfl, by simp [Expr.eval, hσ x hx]⟩) ha hv
  rw [he] at h1
  cases h1
  have : Constraint.evaluate h ⟨i, .expr e⟩ σ = .ok v := by
    simp only [Constraint.evaluate, hi]
    exact h2
  unfold Holds
  rw [this]
  constructor
  · rintro ⟨r, h3, h4⟩
    cases h3
    exact h4
  · exact fun h => ⟨v, rfl, h⟩

/-! ## What happens to the other formulas -/

/-- Two objects of which one is an expression, and which are not both `Const` objects. -/
def Mixed (a b : Obj) : Prop := ((∃ e, a = .expr e) ∨ ∃ e, b = .expr e) ∧ ¬ ((∃ m, a = .expr (.const m)) ∧ ∃ n, b = .expr (.const n))

/-- Comparing such objects gives an expression, which Python takes for true, whatever it says. -/
theorem mixed_cmp (c : Cmp) {a b : Obj} (h : Mixed a b) : ∃ (c' : Cmp) (l r : Expr), Obj.cmp c a b = .expr (.bin c'.bop l r) := by
  have key : ∀ (c : Cmp) (e : Expr) (o : Obj), ¬ ((∃ m, e = .const m) ∧ ∃ n, o = .expr (.const n)) → ∃ (c' : Cmp) (l r : Expr), e.pyCmp c o = .expr (.bin c'.bop l r) := by
    intro c e o hn
    unfold Expr.pyCmp
    split
    · rename_i v w
      exact absurd ⟨⟨v, rfl⟩, ⟨w, rfl⟩⟩ hn
    · exact ⟨c, _, _, rfl⟩
  unfold Obj.cmp
  split
  · rcases h.1 with ⟨e, he⟩ | ⟨e, he⟩ <;> cases he
  · exact key _ _ _ (fun ⟨_, ⟨n, hn⟩⟩ => by cases hn)
  · exact key _ _ _ (fun ⟨_, ⟨n, hn⟩⟩ => by cases hn)
  · rename_i e o hne
    exact key _ _ _ (fun ⟨⟨m, hm⟩, ⟨n, hn⟩⟩ => h.2 ⟨⟨m, by rw [hm]⟩, ⟨n, hn⟩⟩)

theorem mixed_truth (c : Cmp) {a b : Obj} (h : Mixed a b) : (Obj.cmp c a b).truth = true := by
  obtain ⟨c', l, r, h⟩ := mixed_cmp c h
  rw [h]
  rfl

/-- Of `a < b < d` only `b < d` is left, if one of `a` and `b` is an expression. -/
theorem C68_chain_drops (c₁ c₂ : Cmp) {a b : Obj} (h : Mixed a b) (d : Obj) : Obj.chain c₁ c₂ a b d = Obj.cmp c₂ b d := by
  unfold Obj.chain
  simp [mixed_truth c₁ h]

/-- Each of the comparisons of the chain has an expression in it. -/
def mixedAll (a : Obj) : List (Cmp × Obj) → Prop
  | [] => True
  | (_, b) :: cs => Mixed a b ∧ mixedAll b cs

/-- Of a chain of any length only the last comparison is left. -/
theorem C68_chain_last (a : Obj) (cs : List (Cmp × Obj)) (c : Cmp) (b : Obj) (h : mixedAll a cs) :
    Obj.chainAll a (cs ++ [(c, b)]) = Obj.cmp c (match cs.getLast? with | some p => p.2 | none => a) b := by
  induction cs generalizing a with
  | nil => rfl
  | cons p cs ih =>
    obtain ⟨c', b'⟩ := p
    have hstep : Obj.chainAll a ((c', b') :: (cs ++ [(c, b)])) = Obj.chainAll b' (cs ++ [(c, b)]) := by
      cases cs <;> simp [Obj.chainAll, mixed_truth c' h.1]
    rw [List.cons_append, hstep, ih b' h.2]
    cases cs with
    | nil => rfl
    | cons q qs =>
      rw [List.getLast?_cons_cons, List.getLast?_eq_some_getLast (l := q :: qs) (by simp)]

/-- An expression is true for Python, unless it is a `Sum` or `Prod` of nothing. Hence `e and b` is `b`, `e or b` is `e`, and `not e` is `False`. -/
theorem C68_connectives (e : Expr) (he : ∀ k c, e ≠ .acc k c []) (b : Obj) :
    Obj.both (.expr e) b = b ∧ Obj.either (.expr e) b = .expr e ∧ Obj.not (.expr e) = .int 0 := by
  have : (Obj.expr e).truth = true := by
    cases e with
    | acc k c es =>
      cases es with
      | nil => exact absurd rfl (he k c)
      | cons _ _ => rfl
    | _ => rfl
  simp [Obj.both, Obj.either, Obj.not, this, ofBool]

/-- `max` and `min` of expressions other than constants are the last one. -/
theorem C68_max_last (a : Obj) (os : List Obj) (ha : ∃ e, a = .expr e ∧ ∀ n, e ≠ .const n) (h : ∀ o ∈ os, ∃ e, o = .expr e ∧ ∀ n, e ≠ .const n) :
    Obj.pyMax a os = (a :: os).getLast (by simp) ∧ Obj.pyMin a os = (a :: os).getLast (by simp) := by
  have gen : ∀ (c : Cmp) (os : List Obj) (a : Obj), (∃ e, a = .expr e ∧ ∀ n, e ≠ .const n) → (∀ o ∈ os, ∃ e, o = .expr e ∧ ∀ n, e ≠ .const n) →
      os.foldl (fun m o => if (Obj.cmp c o m).truth then o else m) a = (a :: os).getLast (by simp) := by
    intro c os
    induction os with
    | nil => intro a _ _; rfl
    | cons o os ih =>
      intro a ha h
      obtain ⟨e, rfl, he⟩ := h o (by simp)
      have hm : Mixed (.expr e) a := ⟨.inl ⟨e, rfl⟩, fun ⟨⟨m, hm⟩, _⟩ => by cases hm; exact he m rfl⟩
      rw [List.foldl_cons, mixed_truth c hm, if_pos rfl, ih (.expr e) ⟨e, rfl, he⟩ (fun o ho => h o (by simp [ho]))]
      rw [List.getLast_cons (by simp : (Obj.expr e :: os) ≠ [])]
  exact ⟨gen .gt os a ha h, gen .lt os a ha h⟩

/-- `a in [b, …]` is true if `b` or `a` is an expression. -/
theorem C68_in (a b : Obj) (os : List Obj) (h : Mixed b a) : Obj.isIn a (b :: os) = true := by
  simp [Obj.isIn, mixed_truth .eq h]

/-- The claim for one formula over variables. -/
def Right (s : Src) : Prop := ∀ (ρ : Store) (σ : Subst) (val : Name → Int) (v : Int), (∀ x ∈ names s, σ.get? x = some (val x)) → meaning val s = some v →
  ∃ o, s.obj asVariables = .ok o ∧ o.eval ρ σ = .ok v

/-- `1 <= x <= 3` does not say `1 <= x`. -/
theorem C68_refuted_chain : ¬ Right (.chain .le .le (.lit 1) (.name "x") (.lit 3)) := by
  intro h
  obtain ⟨o, h1, h2⟩ := h (fun _ => 0) [("x", 0)] (fun _ => 0) 0 (by intro x hx; simp [names] at hx; subst hx; rfl) rfl
  cases h1
  exact absurd h2 (by decide)

/-- So a chain constrains only its last two parts: `x == 1 & y == 2`, which Python reads as `x == (1 & y) == 2`, does not mention `x` at all. -/
theorem C68_refuted_precedence : ∃ e, (Src.chain .eq .eq (.name "x") (.amp (.lit 1) (.name "y")) (.lit 2)).obj asVariables = .ok (.expr e) ∧ e.vars = ["y"] :=
  ⟨_, rfl, by decide⟩

/-- `x == 1 and y == 1` does not say `x == 1`. -/
theorem C68_refuted_and : ¬ Right (.both (.cmp .eq (.name "x") (.lit 1)) (.cmp .eq (.name "y") (.lit 1))) := by
  intro h
  obtain ⟨o, h1, h2⟩ := h (fun _ => 0) [("x", 0), ("y", 1)] (fun x => if x = "x" then 0 else 1) 0
    (by intro x hx; simp [names] at hx; rcases hx with rfl | rfl <;> rfl) rfl
  cases h1
  exact absurd h2 (by decide)

/-- `x == 1 or y == 1` demands `x == 1`. -/
theorem C68_refuted_or : ¬ Right (.either (.cmp .eq (.name "x") (.lit 1)) (.cmp .eq (.name "y") (.lit 1))) := by
  intro h
  obtain ⟨o, h1, h2⟩ := h (fun _ => 0) [("x", 0), ("y", 1)] (fun x => if x = "x" then 0 else 1) 1
    (by intro x hx; simp [names] at hx; rcases hx with rfl | rfl <;> rfl) rfl
  cases h1
  exact absurd h2 (by decide)

/-- `not x == 1` is `False`. -/
theorem C68_refuted_not : ¬ Right (.no (.cmp .eq (.name "x") (.lit 1))) := by
  intro h
  obtain ⟨o, h1, h2⟩ := h (fun _ => 0) [("x", 0)] (fun _ => 0) 1 (by intro x hx; simp [names] at hx; subst hx; rfl) rfl
  cases h1
  exact absurd h2 (by decide)

/-- `y if x == 1 else 0` is `y`. -/
theorem C68_refuted_if : ¬ Right (.cond (.cmp .eq (.name "x") (.lit 1)) (.name "y") (.lit 0)) := by
  intro h
  obtain ⟨o, h1, h2⟩ := h (fun _ => 0) [("x", 0), ("y", 1)] (fun x => if x = "x" then 0 else 1) 0
    (by intro x hx; simp [names] at hx; rcases hx with rfl | rfl <;> rfl) rfl
  cases h1
  exact absurd h2 (by decide)

/-- `max(x, y)` and `min(y, x)` are the second one. -/
theorem C68_refuted_max : ¬ Right (.max (.name "x") (.name "y")) ∧ ¬ Right (.min (.name "y") (.name "x")) := by
  constructor
  · intro h
    obtain ⟨o, h1, h2⟩ := h (fun _ => 0) [("x", 1), ("y", 0)] (fun x => if x = "x" then 1 else 0) 1
      (by intro x hx; simp [names] at hx; rcases hx with rfl | rfl <;> rfl) rfl
    cases h1
    exact absurd h2 (by decide)
  · intro h
    obtain ⟨o, h1, h2⟩ := h (fun _ => 0) [("x", 1), ("y", 0)] (fun x => if x = "x" then 1 else 0) 0
      (by intro x hx; simp [names] at hx; rcases hx with rfl | rfl <;> rfl) rfl
    cases h1
    exact absurd h2 (by decide)

/-- `&` between numbers that are not conditions: `(x*0 == x*0) + 1` is computed to be 2 on the spot, and `2 & 1` is then bitwise. -/
theorem C68_refuted_amp : ¬ Right (.amp (.add (.cmp .eq (.mul (.name "x") (.lit 0)) (.mul (.name "x") (.lit 0))) (.lit 1)) (.lit 1)) := by
  intro h
  obtain ⟨o, h1, h2⟩ := h (fun _ => 0) [("x", 0)] (fun _ => 0) 1 (by intro x hx; simp [names] at hx; subst hx; rfl) rfl
  cases h1
  exact absurd h2 (by decide)

/-! ## Concrete cases -/

/-- `(3 * x + abs(y - 7) == 10) & ((x < y) | (x % 2 == 0))` is allowed, and right. -/
def exFormula : Src :=
  .amp (.cmp .eq (.add (.mul (.lit 3) (.name "x")) (.abs (.sub (.name "y") (.lit 7)))) (.lit 10))
    (.bar (.cmp .lt (.name "x") (.name "y")) (.cmp .eq (.mod (.name "x") (.lit 2)) (.lit 0)))

example : allowed exFormula = true ∧ meaning (fun x => if x = "x" then 2 else 3) exFormula = some 1 ∧
    ∃ o, exFormula.obj asVariables = .ok o ∧ o.eval (fun _ => 0) [("x", 2), ("y", 3)] = .ok 1 :=
  ⟨by decide, by decide, C68_partial exFormula (val := fun x => if x = "x" then 2 else 3)
    (fun x hx => ⟨_, rfl, by simp [exFormula, names] at hx; rcases hx with rfl | rfl | rfl | rfl | rfl <;> rfl⟩) (by decide) (by decide)⟩

/-- The hypotheses of `C68_constraint` can be met. -/
example : ∃ e, exFormula.obj asVariables = .ok (.expr e) ∧ Holds ⟨fun _ => 0, fun _ => none, 0, 1⟩ ⟨0, .expr e⟩ [("x", 2), ("y", 3)] :=
  ⟨_, rfl, (C68_constraint (val := fun x => if x = "x" then 2 else 3) _ exFormula (by decide) rfl 0 rfl
    (fun x hx => by simp [exFormula, names] at hx; rcases hx with rfl | rfl | rfl | rfl | rfl <;> rfl) (v := 1) (by decide)).2 (by decide)⟩

/-- `1 < x < y < 5` is `y < 5`. -/
example : Obj.chainAll (.int 1) [(.lt, .expr (.var "x")), (.lt, .expr (.var "y")), (.lt, .int 5)] = Obj.cmp .lt (.expr (.var "y")) (.int 5) :=
  C68_chain_last (.int 1) [(.lt, .expr (.var "x")), (.lt, .expr (.var "y"))] .lt (.int 5)
    ⟨⟨.inr ⟨_, rfl⟩, fun h => by obtain ⟨⟨m, h⟩, _⟩ := h; cases h⟩, ⟨.inl ⟨_, rfl⟩, fun h => by obtain ⟨⟨m, h⟩, _⟩ := h; cases h⟩, trivial⟩

end Satisfy.Props
