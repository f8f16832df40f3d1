import Verif.Lemmas.Vars
/-!
# Properties of expressions: C01 (operators), C02 (division), C03 (vars), C04 (parameters), C08 (equals)

`Obj` is what Python code can put around an operator: an int or an expression object.
`o.eval ρ σ` is the value of that object: `evaluate(σ)` with the parameters having the values `ρ`.
-/

namespace Satisfy.Props
open Satisfy

variable {ρ : Store} {σ : Subst}

/-! ## C01 -/

theorem C01_add {a b : Obj} {x y : Int} (ha : a.eval ρ σ = .ok x) (hb : b.eval ρ σ = .ok y) :
    (a.add b).eval ρ σ = .ok (x + y) := by
  match a, b with
  | .int _, .int _ => simp [Obj.eval] at ha hb; simp [Obj.add, Obj.eval, ha, hb]
  | .int _, .expr _ => exact pyAdd_ok _ _ (by simpa [Expr.eval, Obj.eval] using ha) hb
  | .expr _, _ => exact pyAdd_ok _ _ ha hb

theorem C01_sub {a b : Obj} {x y : Int} (ha : a.eval ρ σ = .ok x) (hb : b.eval ρ σ = .ok y) :
    (a.sub b).eval ρ σ = .ok (x - y) := by
  match a, b with
  | .int _, .int _ => simp [Obj.eval] at ha hb; simp [Obj.sub, Obj.eval, ha, hb]
  | .int _, .expr _ => exact pySub_ok _ _ (by simpa [Expr.eval, Obj.eval] using ha) hb
  | .expr _, _ => exact pySub_ok _ _ ha hb

theorem C01_mul {a b : Obj} {x y : Int} (ha : a.eval ρ σ = .ok x) (hb : b.eval ρ σ = .ok y) :
    (a.mul b).eval ρ σ = .ok (x * y) := by
  match a, b with
  | .int _, .int _ => simp [Obj.eval] at ha hb; simp [Obj.mul, Obj.eval, ha, hb]
  | .int _, .expr _ => exact pyMul_ok _ _ (by simpa [Expr.eval, Obj.eval] using ha) hb
  | .expr _, _ => exact pyMul_ok _ _ ha hb

/-- `e / b` for an expression `e`: floor division of the values (an int on the left: see C02). -/
theorem C01_div {e : Expr} {b : Obj} {x y : Int} (ha : e.eval ρ σ = .ok x) (hb : b.eval ρ σ = .ok y)
    (hy : y ≠ 0) : ∃ o, (Obj.expr e).div b = .ok o ∧ o.eval ρ σ = .ok (x.fdiv y) := by
  have gen : (Expr.bin .div e (coerce b)).eval ρ σ = .ok (x.fdiv y) := by
    rw [Expr.eval]; simp [ha, hb, BOp.op, pyFloorDiv, hy]
  simp only [Obj.div]
  unfold Expr.pyDiv
  split
  · rename_i v
    have hx : v = x := by simpa [Expr.eval] using ha
    split
    · rename_i h0; exact ⟨_, rfl, by subst hx; simp [Obj.eval, Expr.eval, h0]⟩
    · split
      · rename_i w; have : w = y := by simpa [Obj.eval, Expr.eval] using hb
        subst hx this
        exact ⟨_, by simp [pyFloorDiv, hy]; rfl, by simp [Obj.eval, Expr.eval]⟩
      · exact ⟨_, rfl, gen⟩
  · rename_i w _
    have : w = y := by simpa [Obj.eval, Expr.eval] using hb
    subst this
    split
    · rename_i h0; subst h0; exact ⟨_, rfl, by simpa [Obj.eval] using ha⟩
    · exact ⟨_, rfl, gen⟩
  · exact ⟨_, rfl, gen⟩

/-- Dividing by something that evaluates to zero never silently gives a value, except that the
literal constant `0` divided by anything was folded to `0`. -/
theorem C01_div_zero {e : Expr} {b : Obj} {x : Int} (ha : e.eval ρ σ = .ok x) (hb : b.eval ρ σ = .ok 0)
    (he : e ≠ .const 0) :
    (Obj.expr e).div b = .error .zeroDivision ∨
      ∃ o, (Obj.expr e).div b = .ok o ∧ o.eval ρ σ = .error .zeroDivision := by
  have gen : (Expr.bin .div e (coerce b)).eval ρ σ = .error .zeroDivision := by
    rw [Expr.eval]; simp [ha, hb, BOp.op, pyFloorDiv]
  simp only [Obj.div]
  unfold Expr.pyDiv
  split
  · rename_i v
    split
    · rename_i h0; subst h0; exact absurd rfl he
    · split
      · rename_i w; have : w = 0 := by simpa [Obj.eval, Expr.eval] using hb
        subst this; left; simp [pyFloorDiv]
      · exact .inr ⟨_, rfl, gen⟩
  · rename_i w _
    have : w = 0 := by simpa [Obj.eval, Expr.eval] using hb
    subst this
    right; exact ⟨_, rfl, gen⟩
  · exact .inr ⟨_, rfl, gen⟩

theorem C01_mod {a b : Obj} {x y : Int} (ha : a.eval ρ σ = .ok x) (hb : b.eval ρ σ = .ok y)
    (hy : y ≠ 0) : ∃ o, a.mod b = .ok o ∧ o.eval ρ σ = .ok (x.fmod y) := by
  have key : ∀ e : Expr, e.eval ρ σ = .ok x → ∃ e', e.pyMod b = .ok e' ∧ e'.eval ρ σ = .ok (x.fmod y) := by
    intro e he
    unfold Expr.pyMod
    split
    · rename_i v w
      have h1 : w = y := by simpa [Obj.eval, Expr.eval] using hb
      have h2 : v = x := by simpa [Expr.eval] using he
      subst h1 h2
      exact ⟨_, by simp [pyMod, hy]; rfl, by simp [Expr.eval]⟩
    · exact ⟨_, rfl, by rw [Expr.eval]; simp [he, hb, BOp.op, pyMod, hy]⟩
  match a, b with
  | .int _, .int _ =>
    simp [Obj.eval] at ha hb; subst ha hb
    exact ⟨_, by simp [Obj.mod, pyMod, hy]; rfl, rfl⟩
  | .int a, .expr e =>
    obtain ⟨e', h1, h2⟩ := key (.const a) (by simpa [Expr.eval, Obj.eval] using ha)
    exact ⟨.expr e', by simp [Obj.mod, h1], h2⟩
  | .expr e, _ =>
    obtain ⟨e', h1, h2⟩ := key e ha
    exact ⟨.expr e', by simp [Obj.mod, h1], h2⟩

theorem C01_pow {a b : Obj} {x y : Int} (ha : a.eval ρ σ = .ok x) (hb : b.eval ρ σ = .ok y)
    (hy : 0 ≤ y) : ∃ o, a.pow b = .ok o ∧ o.eval ρ σ = .ok (x ^ y.toNat) := by
  have hp : ∀ a : Int, pyPow a y = .ok (a ^ y.toNat) := by
    intro a; unfold pyPow; rw [if_neg (by omega)]
  have key : ∀ e : Expr, e.eval ρ σ = .ok x → ∃ e', e.pyPow b = .ok e' ∧ e'.eval ρ σ = .ok (x ^ y.toNat) := by
    intro e he
    have gen : (Expr.bin .pow e (coerce b)).eval ρ σ = .ok (x ^ y.toNat) := by
      rw [Expr.eval]; simp [he, hb, BOp.op, hp]
    unfold Expr.pyPow
    split
    · rename_i v
      have h2 : v = x := by simpa [Expr.eval] using he
      split
      · rename_i h1; exact ⟨_, rfl, by rw [← h2, h1]; simp [Expr.eval]⟩
      · split
        · rename_i w
          have h1 : w = y := by simpa [Obj.eval, Expr.eval] using hb
          subst h1 h2
          exact ⟨_, by simp [hp]; rfl, by simp [Expr.eval]⟩
        · exact ⟨_, rfl, gen⟩
    · rename_i w _
      have h1 : w = y := by simpa [Obj.eval, Expr.eval] using hb
      subst h1
      split
      · rename_i h0; exact ⟨_, rfl, by simp [Expr.eval, h0]⟩
      · split
        · rename_i h0; exact ⟨_, rfl, by rw [he, h0]; simp⟩
        · exact ⟨_, rfl, gen⟩
    · exact ⟨_, rfl, gen⟩
  match a, b with
  | .int _, .int _ =>
    simp [Obj.eval] at ha hb; subst ha hb
    exact ⟨_, by simp [Obj.pow, hp]; rfl, rfl⟩
  | .int a, .expr e =>
    obtain ⟨e', h1, h2⟩ := key (.const a) (by simpa [Expr.eval, Obj.eval] using ha)
    exact ⟨.expr e', by simp [Obj.pow, h1], h2⟩
  | .expr e, _ =>
    obtain ⟨e', h1, h2⟩ := key e ha
    exact ⟨.expr e', by simp [Obj.pow, h1], h2⟩

/-- All six comparisons, with either operand an int or an expression. -/
theorem C01_cmp (c : Cmp) {a b : Obj} {x y : Int} (ha : a.eval ρ σ = .ok x) (hb : b.eval ρ σ = .ok y) :
    (Obj.cmp c a b).eval ρ σ = .ok (if c.holds x y then 1 else 0) := by
  have hbin : ∀ (c : Cmp) (a b : Int), c.bop.op a b = .ok (if c.holds a b then 1 else 0) := by
    intro c a b; cases c <;> simp [Cmp.bop, BOp.op, Cmp.holds, ofBool]
  have hswap : ∀ (c : Cmp) (a b : Int), c.swap.holds a b = c.holds b a := by
    intro c a b; cases c <;> simp [Cmp.swap, Cmp.holds, eq_comm]
  have key : ∀ (c : Cmp) (e : Expr) (o : Obj) (x y : Int), e.eval ρ σ = .ok x → o.eval ρ σ = .ok y →
      (e.pyCmp c o).eval ρ σ = .ok (if c.holds x y then 1 else 0) := by
    intro c e o x y he ho
    unfold Expr.pyCmp
    split
    · rename_i v w
      have h1 : w = y := by simpa [Obj.eval, Expr.eval] using ho
      have h2 : v = x := by simpa [Expr.eval] using he
      subst h1 h2; simp [Obj.eval, ofBool]
    · rw [Obj.eval, Expr.eval]; simp [he, ho, hbin]
  unfold Obj.cmp
  split
  · simp [Obj.eval] at ha hb; subst ha hb; simp [Obj.eval, ofBool]
  · rw [key c.swap _ _ y x hb (by simpa [Obj.eval] using ha), hswap]
  · rw [key c.swap _ _ y x hb ha, hswap]
  · exact key c _ _ x y ha hb

/-- `a & b` with at least one expression operand: Python's `x and y` on the values. -/
theorem C01_and {a b : Obj} {x y : Int} (ha : a.eval ρ σ = .ok x) (hb : b.eval ρ σ = .ok y)
    (hab : (∃ e, a = .expr e) ∨ (∃ e, b = .expr e)) :
    (a.and b).eval ρ σ = .ok (if x ≠ 0 then y else x) := by
  have hp : ∀ x y, pyAnd x y = if x ≠ 0 then y else x := by intro x y; simp [pyAnd, truthy]
  unfold Obj.and
  split
  · simp at hab
  · rw [Obj.eval, Expr.eval]; rw [Obj.eval] at hb; simp [ha, hb, BOp.op, hp]
  · unfold Expr.pyAnd
    split
    · rename_i v w
      have h1 : w = y := by simpa [Obj.eval, Expr.eval] using hb
      have h2 : v = x := by simpa [Obj.eval, Expr.eval] using ha
      subst h1 h2; simp [Obj.eval, hp]
    · rw [Obj.eval] at ha; rw [Obj.eval, Expr.eval]; simp [ha, hb, BOp.op, hp]

/-- `a | b` with at least one expression operand: Python's `x or y` on the values. -/
theorem C01_or {a b : Obj} {x y : Int} (ha : a.eval ρ σ = .ok x) (hb : b.eval ρ σ = .ok y)
    (hab : (∃ e, a = .expr e) ∨ (∃ e, b = .expr e)) :
    (a.or b).eval ρ σ = .ok (if x ≠ 0 then x else y) := by
  have hp : ∀ x y, pyOr x y = if x ≠ 0 then x else y := by intro x y; simp [pyOr, truthy]
  unfold Obj.or
  split
  · simp at hab
  · rw [Obj.eval, Expr.eval]; rw [Obj.eval] at hb; simp [ha, hb, BOp.op, hp]
  · unfold Expr.pyOr
    split
    · rename_i v w
      have h1 : w = y := by simpa [Obj.eval, Expr.eval] using hb
      have h2 : v = x := by simpa [Obj.eval, Expr.eval] using ha
      subst h1 h2; simp [Obj.eval, hp]
    · rw [Obj.eval] at ha; rw [Obj.eval, Expr.eval]; simp [ha, hb, BOp.op, hp]

theorem C01_neg {a : Obj} {x : Int} (ha : a.eval ρ σ = .ok x) : a.neg.eval ρ σ = .ok (-x) := by
  cases a with
  | int n => simp [Obj.eval] at ha; simp [Obj.neg, Obj.eval, ha]
  | expr e => rw [Obj.eval] at ha; rw [Obj.neg, Obj.eval, Expr.eval]; simp [ha, UOp.op]

theorem C01_abs {a : Obj} {x : Int} (ha : a.eval ρ σ = .ok x) : a.abs.eval ρ σ = .ok (|x|) := by
  have : |x| = (x.natAbs : Int) := (Int.abs_eq_natAbs x)
  cases a with
  | int n => simp [Obj.eval] at ha; simp [Obj.abs, Obj.eval, ha, pyAbs, this]
  | expr e => rw [Obj.eval] at ha; rw [Obj.abs, Obj.eval, Expr.eval]; simp [ha, UOp.op, pyAbs, this]

/-- The built-in `sum` over any list of objects (used by every front end) adds the values. -/
theorem C01_sum {os : List Obj} {xs : List Int} (h : os.map (Obj.eval ρ σ) = xs.map .ok) :
    (Obj.pySum os).eval ρ σ = .ok xs.sum := by
  have gen : ∀ (os : List Obj) (xs : List Int) (a : Obj) (x : Int), a.eval ρ σ = .ok x →
      os.map (Obj.eval ρ σ) = xs.map .ok → (os.foldl Obj.add a).eval ρ σ = .ok (x + xs.sum) := by
    intro os
    induction os with
    | nil => intro xs a x ha h; cases xs <;> simp_all
    | cons o os ih =>
      intro xs a x ha h
      cases xs with
      | nil => simp at h
      | cons y ys =>
        simp only [List.map_cons, List.cons.injEq] at h
        rw [List.foldl_cons, ih ys _ _ (C01_add ha h.1) h.2, List.sum_cons, Int.add_assoc]
  simpa [Obj.pySum] using gen os xs (.int 0) 0 rfl h

/-- What the model's `Int.fdiv` / `Int.fmod` mean: quotient rounded towards minus infinity and the
matching remainder (the Python language definition of `//` and `%`). -/
theorem floor_division_meaning (x y : Int) :
    y * x.fdiv y + x.fmod y = x ∧ (0 < y → 0 ≤ x.fmod y ∧ x.fmod y < y) ∧
      (y < 0 → y < x.fmod y ∧ x.fmod y ≤ 0) := by
  refine ⟨Int.mul_fdiv_add_fmod x y, fun h => ⟨Int.fmod_nonneg_of_pos x h, Int.fmod_lt_of_pos x h⟩, fun h => ?_⟩
  have h1 := Int.fmod_nonneg_of_pos (-x) (b := -y) (by omega)
  have h2 := Int.fmod_lt_of_pos (-x) (b := -y) (by omega)
  rw [Int.neg_fmod_neg] at h1 h2
  omega

-- non-vacuity: a mixed tree with flattening, folding and a parameter
example : ((Obj.int 3).mul (.expr (.var "x"))).eval (fun _ => 0) [("x", 10)] = .ok 30 := by decide
example :
    let e := (((Obj.int 3).mul (.expr (.var "x"))).mul (.int 2)).add (.int 3)
    (e.sub (.expr (.param 0 "y"))).eval (fun _ => 13) [("x", 10)] = .ok 50 := by decide

/-! ## C02 (false of the code) -/

/-- Dividing an int by any expression raises `TypeError`, for every int and every expression. -/
theorem C02_refuted_int_div_expr (n : Int) (e : Expr) :
    (Obj.int n).div (.expr e) = .error .typeError := rfl

/-- `//` with an expression on either side raises `TypeError`, always. -/
theorem C02_refuted_floorDiv (a b : Obj) (h : (∃ e, a = .expr e) ∨ (∃ e, b = .expr e)) :
    a.floorDiv b = .error .typeError := by
  rcases h with ⟨e, rfl⟩ | ⟨e, rfl⟩
  · rfl
  · cases a <;> rfl

/-- The claim itself fails: `6 / x` cannot be built although `x` evaluates to 3. -/
theorem C02_refuted : ¬ (∀ (n : Int) (e : Expr) (ρ : Store) (σ : Subst) (y : Int),
    e.eval ρ σ = .ok y → y ≠ 0 →
      ∃ o, (Obj.int n).div (.expr e) = .ok o ∧ o.eval ρ σ = .ok (n.fdiv y)) := by
  intro h
  obtain ⟨o, h1, _⟩ := h 6 (.var "x") (fun _ => 0) [("x", 3)] 3 (by decide) (by decide)
  simp [Obj.div, Obj.floorDiv] at h1

/-- What does work: an expression on the left. -/
theorem C02_partial {e : Expr} {b : Obj} {x y : Int} (ha : e.eval ρ σ = .ok x)
    (hb : b.eval ρ σ = .ok y) (hy : y ≠ 0) :
    ∃ o, (Obj.expr e).div b = .ok o ∧ o.eval ρ σ = .ok (x.fdiv y) := C01_div ha hb hy

/-! ## C03 -/

/-- Specification: the variable `x` occurs in the tree. -/
inductive Occurs (x : Name) : Expr → Prop
  | var : Occurs x (.var x)
  | un {op e} : Occurs x e → Occurs x (.un op e)
  | left {op l r} : Occurs x l → Occurs x (.bin op l r)
  | right {op l r} : Occurs x r → Occurs x (.bin op l r)
  | acc {k c es e} : e ∈ es → Occurs x e → Occurs x (.acc k c es)

theorem C03_vars_exact (e : Expr) (x : Name) : x ∈ e.vars ↔ Occurs x e := by
  induction e using Expr.induct with
  | hc v => simp [Expr.vars]; intro h; cases h
  | hv y =>
    constructor
    · intro h; simp [Expr.vars] at h; subst h; exact .var
    · intro h; cases h; simp [Expr.vars]
  | hp i n => simp [Expr.vars]; intro h; cases h
  | hu op e ih =>
    rw [mem_vars_un, ih]
    exact ⟨.un, fun h => by cases h; assumption⟩
  | hb op l r ihl ihr =>
    rw [mem_vars_bin, ihl, ihr]
    constructor
    · rintro (h | h); exacts [.left h, .right h]
    · intro h; cases h; exacts [.inl ‹_›, .inr ‹_›]
  | ha k c es ih =>
    rw [mem_vars_acc]
    constructor
    · rintro ⟨e, he, hx⟩; exact .acc he ((ih e he).1 hx)
    · intro h; cases h with | acc he h => exact ⟨_, he, (ih _ he).2 h⟩

theorem C03_vars_nodup (e : Expr) : e.vars.Nodup := nodup_vars e

/-- Evaluation (result or exception) looks only at `e.vars()`. -/
theorem C03_local (e : Expr) (σ σ' : Subst) (h : ∀ x ∈ e.vars, σ.get? x = σ'.get? x) :
    e.eval ρ σ = e.eval ρ σ' := eval_congr ρ σ σ' e h

theorem C03_undefined {e : Expr} {x : Name} (h : e.eval ρ σ = .error (.undefinedVar x)) :
    x ∈ e.vars ∧ σ.get? x = none := eval_undefined h

/-- Conversely a successful evaluation needed every variable. -/
theorem C03_all_needed {e : Expr} {v : Int} (h : e.eval ρ σ = .ok v) :
    ∀ x ∈ e.vars, ∃ w, σ.get? x = some w := eval_ok_bound h

/-- Variables of an object. -/
def objVars (o : Obj) : List Name := (coerce o).vars

/-- The unary operators keep the variables, except that of an int there are none. -/
theorem C03_vars_neg (a : Obj) (x : Name) : x ∈ objVars a.neg ↔ x ∈ objVars a := by
  cases a <;> simp [Obj.neg, objVars, coerce, Expr.vars, mem_dedupInto]

theorem C03_vars_abs (a : Obj) (x : Name) : x ∈ objVars a.abs ↔ x ∈ objVars a := by
  cases a <;> simp [Obj.abs, objVars, coerce, Expr.vars, mem_dedupInto]

theorem C03_vars_add (a b : Obj) (x : Name) (h : x ∈ objVars (a.add b)) : x ∈ objVars a ∨ x ∈ objVars b := by
  have key : ∀ (e : Expr) (o : Obj), x ∈ (e.pyAdd o).vars → x ∈ e.vars ∨ x ∈ objVars o := by
    intro e o hx
    unfold Expr.pyAdd at hx
    split at hx
    · split at hx
      · exact .inr hx
      · split at hx
        · simp [Expr.vars] at hx
        · exact makeAcc_vars _ _ _ _ hx
    · split at hx
      · exact .inl hx
      · exact makeAcc_vars _ _ _ _ hx
    · exact makeAcc_vars _ _ _ _ hx
  match a, b with
  | .int _, .int _ => simp [Obj.add, objVars, coerce, Expr.vars] at h
  | .int _, .expr _ => exact key _ _ h
  | .expr _, _ => exact key _ _ h

theorem C03_vars_mul (a b : Obj) (x : Name) (h : x ∈ objVars (a.mul b)) : x ∈ objVars a ∨ x ∈ objVars b := by
  have key : ∀ (e : Expr) (o : Obj), x ∈ (e.pyMul o).vars → x ∈ e.vars ∨ x ∈ objVars o := by
    intro e o hx
    unfold Expr.pyMul at hx
    split at hx
    · split at hx
      · simp [Expr.vars] at hx
      · split at hx
        · exact .inr hx
        · split at hx
          · simp [Expr.vars] at hx
          · exact makeAcc_vars _ _ _ _ hx
    · split at hx
      · simp [Expr.vars] at hx
      · split at hx
        · exact .inl hx
        · exact makeAcc_vars _ _ _ _ hx
    · exact makeAcc_vars _ _ _ _ hx
  match a, b with
  | .int _, .int _ => simp [Obj.mul, objVars, coerce, Expr.vars] at h
  | .int _, .expr _ => exact key _ _ h
  | .expr _, _ => exact key _ _ h

theorem C03_vars_sub (a b : Obj) (x : Name) (h : x ∈ objVars (a.sub b)) : x ∈ objVars a ∨ x ∈ objVars b := by
  have key : ∀ (e : Expr) (o : Obj), x ∈ (e.pySub o).vars → x ∈ e.vars ∨ x ∈ objVars o := by
    intro e o hx
    unfold Expr.pySub at hx
    split at hx
    · split at hx
      · simp at hx; exact .inr hx
      · split at hx
        · simp [Expr.vars] at hx
        · simp at hx; exact hx
    · split at hx
      · exact .inl hx
      · simp at hx; exact hx
    · simp at hx; exact hx
  match a, b with
  | .int _, .int _ => simp [Obj.sub, objVars, coerce, Expr.vars] at h
  | .int _, .expr _ => exact key _ _ h
  | .expr _, _ => exact key _ _ h

theorem C03_vars_cmp (c : Cmp) (a b : Obj) (x : Name) (h : x ∈ objVars (Obj.cmp c a b)) :
    x ∈ objVars a ∨ x ∈ objVars b := by
  have key : ∀ (c : Cmp) (e : Expr) (o : Obj), x ∈ objVars (e.pyCmp c o) → x ∈ e.vars ∨ x ∈ objVars o := by
    intro c e o hx
    unfold Expr.pyCmp at hx
    split at hx
    · simp [objVars, coerce, Expr.vars] at hx
    · simpa [objVars, coerce] using hx
  unfold Obj.cmp at h
  split at h
  · simp [objVars, coerce, Expr.vars] at h
  · exact (key _ _ _ h).symm
  · exact (key _ _ _ h).symm
  · exact key _ _ _ h

theorem C03_vars_and (a b : Obj) (x : Name) (h : x ∈ objVars (a.and b)) : x ∈ objVars a ∨ x ∈ objVars b := by
  unfold Obj.and at h
  split at h
  · simp [objVars, coerce, Expr.vars] at h
  · simpa [objVars, coerce] using h
  · unfold Expr.pyAnd at h
    split at h
    · simp [objVars, coerce, Expr.vars] at h
    · simpa [objVars, coerce] using h

theorem C03_vars_or (a b : Obj) (x : Name) (h : x ∈ objVars (a.or b)) : x ∈ objVars a ∨ x ∈ objVars b := by
  unfold Obj.or at h
  split at h
  · simp [objVars, coerce, Expr.vars] at h
  · simpa [objVars, coerce] using h
  · unfold Expr.pyOr at h
    split at h
    · simp [objVars, coerce, Expr.vars] at h
    · simpa [objVars, coerce] using h

theorem C03_vars_div (a b o : Obj) (x : Name) (ho : a.div b = .ok o) (h : x ∈ objVars o) :
    x ∈ objVars a ∨ x ∈ objVars b := by
  match a, b with
  | .int _, .int _ =>
    simp only [Obj.div, bind_eq_ok] at ho; obtain ⟨v, _, ho⟩ := ho
    cases ho; simp [objVars, coerce, Expr.vars] at h
  | .int _, .expr _ => simp [Obj.div, Obj.floorDiv] at ho
  | .expr e, b =>
    simp only [Obj.div, bind_eq_ok] at ho; obtain ⟨e', he', ho⟩ := ho
    cases ho
    simp only [objVars] at h ⊢
    change x ∈ e'.vars at h
    change x ∈ e.vars ∨ _
    unfold Expr.pyDiv at he'
    split at he'
    · split at he'
      · cases he'; simp [Expr.vars] at h
      · split at he'
        · rw [bind_eq_ok] at he'; obtain ⟨v, _, he'⟩ := he'; cases he'; simp [Expr.vars] at h
        · cases he'; simpa using h
    · split at he'
      · cases he'; exact .inl h
      · cases he'; simpa [coerce] using h
    · cases he'; simpa using h

theorem C03_vars_mod (a b o : Obj) (x : Name) (ho : a.mod b = .ok o) (h : x ∈ objVars o) :
    x ∈ objVars a ∨ x ∈ objVars b := by
  have key : ∀ (e : Expr) (b : Obj) (e' : Expr), e.pyMod b = .ok e' → x ∈ e'.vars → x ∈ e.vars ∨ x ∈ objVars b := by
    intro e b e' he hx
    unfold Expr.pyMod at he
    split at he
    · rw [bind_eq_ok] at he; obtain ⟨v, _, he⟩ := he; cases he; simp [Expr.vars] at hx
    · cases he; simpa [objVars] using hx
  match a, b with
  | .int _, .int _ =>
    simp only [Obj.mod, bind_eq_ok] at ho; obtain ⟨v, _, ho⟩ := ho
    cases ho; simp [objVars, coerce, Expr.vars] at h
  | .int _, .expr _ =>
    simp only [Obj.mod, bind_eq_ok] at ho; obtain ⟨v, hv, ho⟩ := ho
    cases ho; exact key _ _ _ hv h
  | .expr e, b =>
    simp only [Obj.mod, bind_eq_ok] at ho; obtain ⟨v, hv, ho⟩ := ho
    cases ho; exact key _ _ _ hv h

theorem C03_vars_pow (a b o : Obj) (x : Name) (ho : a.pow b = .ok o) (h : x ∈ objVars o) :
    x ∈ objVars a ∨ x ∈ objVars b := by
  have key : ∀ (e : Expr) (b : Obj) (e' : Expr), e.pyPow b = .ok e' → x ∈ e'.vars → x ∈ e.vars ∨ x ∈ objVars b := by
    intro e b e' he hx
    unfold Expr.pyPow at he
    split at he
    · split at he
      · cases he; simp [Expr.vars] at hx
      · split at he
        · rw [bind_eq_ok] at he; obtain ⟨v, _, he⟩ := he; cases he; simp [Expr.vars] at hx
        · cases he; simpa [objVars] using hx
    · split at he
      · cases he; simp [Expr.vars] at hx
      · split at he
        · cases he; exact .inl hx
        · cases he; simpa [objVars, coerce] using hx
    · cases he; simpa [objVars] using hx
  match a, b with
  | .int _, .int _ =>
    simp only [Obj.pow, bind_eq_ok] at ho; obtain ⟨v, _, ho⟩ := ho
    cases ho; simp [objVars, coerce, Expr.vars] at h
  | .int _, .expr _ =>
    simp only [Obj.pow, bind_eq_ok] at ho; obtain ⟨v, hv, ho⟩ := ho
    cases ho; exact key _ _ _ hv h
  | .expr e, b =>
    simp only [Obj.pow, bind_eq_ok] at ho; obtain ⟨v, hv, ho⟩ := ho
    cases ho; exact key _ _ _ hv h

/-- `free_vars(σ)`, when it does not raise, lists the variables not bound by `σ`. -/
theorem C03_free_vars (e : Expr) (fs : List Name) (h : e.freeVars σ = .ok fs) (x : Name) :
    x ∈ fs ↔ x ∈ e.vars ∧ σ.get? x = none := by
  have hs : ∀ y, (σ.has y = true) ↔ ¬ σ.get? y = none := by
    intro y; unfold Dict.has; cases σ.get? y <;> simp
  induction e using Expr.induct with
  | hc v => simp [Expr.freeVars] at h; subst h; simp [Expr.vars]
  | hv y =>
    simp [Expr.freeVars] at h; subst h
    by_cases hy : σ.has y = true
    · simp [hy, Expr.vars]; rintro rfl; exact (hs _).1 hy
    · simp [hy, Expr.vars]; rintro rfl; have := hs x; tauto
  | hp i n => simp [Expr.freeVars] at h
  | hu op e ih => rw [Expr.freeVars] at h; simpa using ih h
  | hb op l r _ _ =>
    rw [Expr.freeVars] at h; injection h with h; subst h
    have := hs x
    simp only [List.mem_filter]; simp; intro _; cases h : σ.has x <;> simp_all
  | ha k c es _ =>
    rw [Expr.freeVars] at h; injection h with h; subst h
    have := hs x
    simp only [List.mem_filter]; simp; intro _ _ _; cases h : σ.has x <;> simp_all

/-- A parameter under zero or more unary operators: `p`, `-p`, `abs(-p)`, … -/
inductive Signed : Expr → Prop
  | param (i : Nat) (n : Name) : Signed (.param i n)
  | un (op : UOp) {e : Expr} (h : Signed e) : Signed (.un op e)

/-- `free_vars(σ)` raises, and then `TypeError`, exactly on a parameter under (zero or more) unary operators; otherwise each free
variable is listed once. -/
theorem C03_free_vars_raises (e : Expr) :
    (Signed e → e.freeVars σ = .error .typeError) ∧ (¬ Signed e → ∃ fs, e.freeVars σ = .ok fs ∧ fs.Nodup) := by
  induction e using Expr.induct with
  | hc v => exact ⟨nofun, fun _ => ⟨[], rfl, List.nodup_nil⟩⟩
  | hv y =>
    refine ⟨nofun, fun _ => ⟨_, rfl, ?_⟩⟩
    by_cases hy : σ.has y = true <;> simp [hy]
  | hp i n => exact ⟨fun _ => rfl, fun h => absurd (.param i n) h⟩
  | hu op e ih =>
    rw [Expr.freeVars]
    exact ⟨fun h => by cases h with | un _ h => exact ih.1 h, fun h => ih.2 (fun h' => h (.un op h'))⟩
  | hb op l r _ _ => exact ⟨nofun, fun _ => ⟨_, rfl, (nodup_vars _).filter _⟩⟩
  | ha k c es _ => exact ⟨nofun, fun _ => ⟨_, rfl, (nodup_vars _).filter _⟩⟩

example : (Expr.un .neg (.param 0 "p")).freeVars [] = .error .typeError := rfl
example : (Expr.bin .mul (.var "x") (.un .neg (.param 0 "p"))).freeVars [] = .ok ["x"] := rfl

/-! ## C04 -/

theorem C04_not_a_variable (i : Nat) (n : Name) : (Expr.param i n).vars = [] := rfl

/-- A substitution entry carrying the name of a parameter is irrelevant unless a *variable* of that
name also occurs. -/
theorem C04_entry_irrelevant (e : Expr) (n : Name) (v : Int) (hn : ¬ Occurs n e) :
    e.eval ρ (Dict.set σ n v) = e.eval ρ σ := by
  apply eval_congr
  intro x hx
  have hxn : x ≠ n := by rintro rfl; exact hn ((C03_vars_exact e x).1 hx)
  induction σ with
  | nil => simp [Dict.set, Dict.get?]; intro h; exact absurd h.symm hxn
  | cons p σ ih =>
    obtain ⟨k, w⟩ := p
    unfold Dict.set
    split
    · rename_i hk; subst hk; simp [Dict.get?, Ne.symm hxn]
    · simp only [Dict.get?]; split
      · rfl
      · exact ih

mutual
/-- Specification: the expression with the parameter object `i` replaced by the number `v`. -/
def replaceParam (i : Nat) (v : Int) : Expr → Expr
  | .param j n => if j = i then .const v else .param j n
  | .const c => .const c
  | .var x => .var x
  | .un op e => .un op (replaceParam i v e)
  | .bin op l r => .bin op (replaceParam i v l) (replaceParam i v r)
  | .acc k c es => .acc k c (replaceParams i v es)
def replaceParams (i : Nat) (v : Int) : List Expr → List Expr
  | [] => []
  | e :: es => replaceParam i v e :: replaceParams i v es
end

/-- Assigning `p.value = v` makes every expression containing `p` evaluate as if `v` stood there. -/
theorem C04_assignment (e : Expr) (i : Nat) (v : Int) :
    e.eval (fun j => if j = i then v else ρ j) σ = (replaceParam i v e).eval ρ σ := by
  induction e using Expr.induct with
  | hc v => simp [replaceParam, Expr.eval]
  | hv x => simp [replaceParam, Expr.eval]
  | hp j n => rw [replaceParam]; split <;> simp [Expr.eval, *]
  | hu op e ih => rw [replaceParam, Expr.eval, Expr.eval, ih]
  | hb op l r ihl ihr => rw [replaceParam, Expr.eval, Expr.eval, ihl, ihr]
  | ha k c es ih =>
    rw [replaceParam, Expr.eval, Expr.eval]
    induction es generalizing c with
    | nil => simp [replaceParams, Expr.evalAcc]
    | cons e es ihl =>
      rw [replaceParams, Expr.evalAcc, Expr.evalAcc, ih e (by simp)]
      congr; funext w; exact ihl _ (fun e he => ih e (by simp [he]))

/-- Operators do not take a snapshot of a parameter: `p + b` keeps following `p`. -/
theorem C04_operators_follow (i : Nat) (n : Name) (b : Obj) {y : Int} (hb : b.eval ρ σ = .ok y) :
    ((Obj.expr (.param i n)).add b).eval ρ σ = .ok (ρ i + y) :=
  C01_add rfl hb

example : (Expr.bin .add (.var "x") (.param 0 "p")).eval (fun _ => 5) [("x", 1), ("p", 1000)] = .ok 6 := by decide

/-! ## C08 (false of the code) -/

/-- `x + 1` "equals" `y + 2*z`… any two binary expressions of the same class with non-constant operands. -/
theorem C08_refuted : ¬ (∀ a b : Expr, a.equals b = true → a = b) := by
  intro h
  have := h (.bin .add (.var "x") (.var "y")) (.bin .add (.var "a") (.var "b")) (by decide)
  simp at this

/-- Even the constant of a `Sum` is ignored. -/
theorem C08_refuted_const : (Expr.acc .sum 1 [.var "x", .var "y"]).equals (.acc .sum 2 [.var "x", .var "y"]) = true := by
  decide

theorem cmp_eq_truth (a b : Expr) :
    (Obj.cmp .eq (.expr a) (.expr b)).truth = true ↔ (∀ v w, a = .const v → b = .const w → v = w) := by
  have key : ∀ a b : Expr, (a.pyCmp .eq (.expr b)).truth = true ↔ (∀ v w, a = .const v → b = .const w → v = w) := by
    intro a b
    cases a <;> cases b <;>
      simp [Expr.pyCmp, Obj.truth, Expr.children, Cmp.bop, Cmp.holds, truthy, ofBool]
  cases a with
  | var x => cases b with
    | param i n => simp [Obj.cmp, Expr.pyCmp, Obj.truth, Expr.children, Cmp.swap, Cmp.bop]
    | _ => rw [Obj.cmp]; exact key _ _; simp
  | _ => rw [Obj.cmp]; exact key _ _; simp

/-- What `equals` really decides, for collections: same class, same number of operands, and equal
values wherever both operands are constants. -/
theorem C08_partial_characterisation (a b : Expr) (ha : a.children ≠ []) :
    a.equals b = true ↔ a.tag = b.tag ∧ a.children.length = b.children.length ∧
      ∀ p ∈ a.children.zip b.children, ∀ v w, p.1 = .const v → p.2 = .const w → v = w := by
  have : a.equals b = (a.tag = b.tag && a.children.length == b.children.length &&
      (a.children.zip b.children).all (fun p => (Obj.cmp .eq (.expr p.1) (.expr p.2)).truth)) := by
    cases a <;> simp [Expr.children] at ha <;> rfl
  rw [this]
  simp only [Bool.and_eq_true, decide_eq_true_eq, beq_iff_eq, List.all_eq_true, cmp_eq_truth, and_assoc]

/-- `equals` is reflexive, and exact on constants and variables. -/
theorem C08_partial_refl (a : Expr) : a.equals a = true := by
  cases a with
  | const v => simp [Expr.equals]
  | var x => simp [Expr.equals]
  | param i n => simp [Expr.equals]
  | un op e =>
    rw [C08_partial_characterisation _ _ (by simp [Expr.children])]
    simp [Expr.children]; grind
  | bin op l r =>
    rw [C08_partial_characterisation _ _ (by simp [Expr.children])]
    simp [Expr.children]; grind
  | acc k c es =>
    cases es with
    | nil => simp [Expr.equals, Expr.children]
    | cons e es =>
      rw [C08_partial_characterisation _ _ (by simp [Expr.children])]
      refine ⟨rfl, rfl, ?_⟩
      intro p hp v w h1 h2
      simp only [Expr.children] at hp
      have : p.1 = p.2 := by
        rw [List.mem_iff_getElem] at hp
        obtain ⟨i, hi, rfl⟩ := hp
        rw [List.getElem_zip]
      rw [this, h2] at h1; injection h1 with h1; exact h1.symm

theorem C08_partial_leaves :
    (∀ v b, (Expr.const v).equals b = true ↔ b = .const v) ∧
    (∀ x b, (Expr.var x).equals b = true ↔ b = .var x) := by
  constructor
  · intro v b; cases b <;> simp [Expr.equals, @eq_comm _ v]
  · intro v b; cases b <;> simp [Expr.equals, @eq_comm _ v]

end Satisfy.Props
