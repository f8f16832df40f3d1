import Verif.Lemmas.Compile
import Verif.Props.Expr
/-!
# Properties of compiled expressions: C05, C06

`(asFunction ρ e).call σ` is `e.as_function()(**σ)` where the parameters had the values `ρ` when the
function was made.
-/

namespace Satisfy.Props
open Satisfy

/-! ## C05 (false in general) -/

/-- `(a | b) & c` is compiled as `(a or b and c)`: at a=1, b=0, c=0 `evaluate` gives 0, the compiled
function 1. -/
theorem C05_refuted_or_in_and :
    let e : Expr := .bin .and (.bin .or (.var "a") (.var "b")) (.var "c")
    let σ : Subst := [("a", 1), ("b", 0), ("c", 0)]
    e.eval (fun _ => 0) σ = .ok 0 ∧ (asFunction (fun _ => 0) e).call σ = .ok 1 := by decide

/-- `-(x / 2)` is compiled with true division. -/
theorem C05_refuted_neg_div :
    let e : Expr := .un .neg (.bin .div (.var "x") (.const 2))
    e.eval (fun _ => 0) [("x", 3)] = .ok (-1) ∧
      (asFunction (fun _ => 0) e).call [("x", 3)] = .error .nonInt := by decide

/-- `-p` for a parameter `p` is compiled to a text mentioning the unbound name `p`. -/
theorem C05_refuted_neg_param :
    let e : Expr := .bin .eq (.var "x") (.un .neg (.param 0 "p"))
    e.eval (fun _ => 3) [("x", -3)] = .ok 1 ∧
      (asFunction (fun _ => 3) e).call [("x", -3)] = .error (.nameError "p") := by decide

/-- `(-x) ** 2` is compiled as `-(x) ** 2`. -/
theorem C05_refuted_pow :
    let e : Expr := .bin .pow (.un .neg (.var "x")) (.const 2)
    e.eval (fun _ => 0) [("x", 3)] = .ok 9 ∧ (asFunction (fun _ => 0) e).call [("x", 3)] = .ok (-9) := by decide

/-- `-(x & y)` is compiled with the bitwise operator. -/
theorem C05_refuted_neg_and :
    let e : Expr := .un .neg (.bin .and (.var "x") (.var "y"))
    e.eval (fun _ => 0) [("x", 1), ("y", 2)] = .ok (-2) ∧
      (asFunction (fun _ => 0) e).call [("x", 1), ("y", 2)] = .ok 0 := by decide

/-- `abs(x - y)` with a variable called `abs`, `sum(…)` with a variable called `sum`: the helper is
hidden. -/
theorem C05_refuted_shadow :
    let e : Expr := .acc .sum 0 [.var "x", .var "y", .var "sum"]
    e.eval (fun _ => 0) [("x", 1), ("y", 2), ("sum", 3)] = .ok 6 ∧
      (asFunction (fun _ => 0) e).call [("x", 1), ("y", 2), ("sum", 3)] = .error .typeError := by decide

theorem C05_refuted : ¬ (∀ (ρ : Store) (e : Expr) (σ : Subst) (v : Int),
    e.eval ρ σ = .ok v → (asFunction ρ e).call σ = .ok v) := by
  intro h
  have := h _ _ _ _ C05_refuted_or_in_and.1
  rw [C05_refuted_or_in_and.2] at this
  exact absurd this (by decide)

/-- On the decidable fragment `Safe` the compiled function agrees with `evaluate` wherever the latter
succeeds, and compilation never falls back. -/
theorem C05_partial {ρ : Store} {e : Expr} (h : e.Safe ρ) :
    (∃ a, asFunction ρ e = .fn e.vars a) ∧
    ∀ σ v, e.eval ρ σ = .ok v → (asFunction ρ e).call σ = .ok v := by
  obtain ⟨a, h1, h2, _⟩ := safe_compile h
  exact ⟨⟨a, h1⟩, h2⟩

-- non-vacuity: arithmetic, comparison, and/or, abs, unary minus, parameters, long sums
example : (Expr.bin .or (.param 0 "p") (.bin .and (.bin .lt (.acc .sum (-3) [.var "x", .un .neg (.var "y"), .var "z"])
    (.bin .pow (.var "x") (.const 2))) (.bin .ne (.un .abs (.bin .sub (.var "x") (.var "y"))) (.param 1 "q")))).Safe
      (fun _ => -7) := by decide
-- explicit sums and products of two values: Sum([Prod([x, y]), z]) == Sum([x], const=2), printed `(x * y + z == 2 + x)`
example : (Expr.bin .eq (.acc .sum 0 [.acc .prod 1 [.var "x", .var "y"], .var "z"]) (.acc .sum 2 [.var "x"])).Safe (fun _ => 0) := by decide
-- Prod([x, Sum([y, z])]) is printed `x * y + z`: not safe
example : ¬ (Expr.acc .prod 1 [.var "x", .acc .sum 0 [.var "y", .var "z"]]).Safe (fun _ => 0) := by decide

/-- C05 where `evaluate` raises. Without `&` and `|` a safe expression, compiled, does exactly what `evaluate` does with the
same values, exceptions included. With them Python's `and` and `or` may skip the part that raises; still, whenever the
compiled function raises, so does `evaluate`. -/
theorem C05_raises {ρ : Store} {e : Expr} (h : e.Safe ρ) :
    (e.eager = true → ∀ σ, (∀ x ∈ e.vars, σ.get? x ≠ none) → (asFunction ρ e).call σ = e.eval ρ σ) ∧
    ∀ σ err, (asFunction ρ e).call σ = .error err → ∃ err', e.eval ρ σ = .error err' := by
  obtain ⟨a, _, h2, h3⟩ := safe_compile h
  refine ⟨h3, fun σ err he => ?_⟩
  cases hv : e.eval ρ σ with
  | error err' => exact ⟨err', rfl⟩
  | ok v => rw [h2 σ v hv] at he; cases he

-- `x % y == 1` with y = 0: both raise ZeroDivisionError
example : (Expr.bin .eq (.bin .mod (.var "x") (.var "y")) (.const 1)).Safe (fun _ => 0) ∧
    (Expr.bin .eq (.bin .mod (.var "x") (.var "y")) (.const 1)).eager = true ∧
    (asFunction (fun _ => 0) (.bin .eq (.bin .mod (.var "x") (.var "y")) (.const 1))).call [("x", 1), ("y", 0)] = .error .zeroDivision := by decide

/-- Why `&` and `|` are left out: `(y != 0) & (x % y == 1)` with y = 0 is 0 compiled, and raises ZeroDivisionError evaluated. -/
theorem C05_skips :
    let e : Expr := .bin .and (.bin .ne (.var "y") (.const 0)) (.bin .eq (.bin .mod (.var "x") (.var "y")) (.const 1))
    e.Safe (fun _ => 0) ∧ e.eval (fun _ => 0) [("x", 1), ("y", 0)] = .error .zeroDivision ∧
      (asFunction (fun _ => 0) e).call [("x", 1), ("y", 0)] = .ok 0 := by decide

/-- Accumulations that show two values print no brackets: `Prod([x, Sum([y, z])])` is compiled as `x * y + z`. -/
theorem C05_refuted_two :
    let e : Expr := .acc .prod 1 [.var "x", .acc .sum 0 [.var "y", .var "z"]]
    let σ : Subst := [("x", 2), ("y", 1), ("z", 1)]
    e.eval (fun _ => 0) σ = .ok 4 ∧ (asFunction (fun _ => 0) e).call σ = .ok 3 := by decide

/-! ## C06 -/

/-- The operators in question. -/
inductive ArithOp where | add | sub | mul | div | mod | cmp (c : Cmp) | and

/-- A user's expression, as written: ints, variables, parameters and the operators. -/
inductive OpTerm where
  | int (n : Int) | var (x : Name) | param (i : Nat) (n : Name)
  | bin (o : ArithOp) (l r : OpTerm)

/-- Running the Python expression. -/
def ArithOp.apply : ArithOp → Obj → Obj → Res Obj
  | .add, a, b => .ok (a.add b)
  | .sub, a, b => .ok (a.sub b)
  | .mul, a, b => .ok (a.mul b)
  | .div, a, b => a.div b
  | .mod, a, b => a.mod b
  | .cmp c, a, b => .ok (Obj.cmp c a b)
  | .and, a, b => .ok (a.and b)

def OpTerm.build : OpTerm → Res Obj
  | .int n => .ok (.int n)
  | .var x => .ok (.expr (.var x))
  | .param i n => .ok (.expr (.param i n))
  | .bin o l r => do
    let a ← l.build
    let b ← r.build
    o.apply a b

def OpTerm.names : OpTerm → List Name
  | .var x => [x]
  | .bin _ l r => l.names ++ r.names
  | _ => []

/-- No `/`, no `&`, no parameters. -/
def OpTerm.plain : OpTerm → Prop
  | .bin o l r => o ≠ .div ∧ o ≠ .and ∧ l.plain ∧ r.plain
  | .param _ _ => False
  | _ => True

/-- No subtraction whose left operand is (or folds to) the number 0, unless the right operand is plain. -/
def OpTerm.noZeroMinus : OpTerm → Prop
  | .bin .sub l r => l.noZeroMinus ∧ r.noZeroMinus ∧ ((l.build ≠ .ok (.int 0) ∧ l.build ≠ .ok (.expr (.const 0))) ∨ r.plain)
  | .bin _ l r => l.noZeroMinus ∧ r.noZeroMinus
  | _ => True

/-- As stated the claim is false: `0 - x / 2` becomes `Neg(x / 2)`, compiled with true division. -/
theorem C06_refuted : ¬ (∀ (t : OpTerm) (e : Expr), t.build = .ok (.expr e) → (∀ x ∈ t.names, NameOk x) →
    ∀ (ρ : Store) (σ : Subst) (v : Int), e.eval ρ σ = .ok v → (asFunction ρ e).call σ = .ok v) := by
  intro h
  have := h (.bin .sub (.int 0) (.bin .div (.var "x") (.int 2))) (.un .neg (.bin .div (.var "x") (.const 2)))
    rfl (by decide) (fun _ => 0) [("x", 3)] (-1) (by decide)
  exact absurd this (by decide)

/-- Another one: `0 - p` for a parameter `p` is compiled to the name of the parameter, which is not defined. -/
theorem C06_refuted_param : ¬ (∀ (t : OpTerm) (e : Expr), t.build = .ok (.expr e) → (∀ x ∈ t.names, NameOk x) →
    ∀ (ρ : Store) (σ : Subst) (v : Int), e.eval ρ σ = .ok v → (asFunction ρ e).call σ = .ok v) := by
  intro h
  have := h (.bin .sub (.int 0) (.param 0 "p")) (.un .neg (.param 0 "p")) rfl (by decide) (fun _ => 3) [] (-3) (by decide)
  exact absurd this (by decide)

/-- Invariant of operator-built trees. With `q` the tree is also free of `/`, `&` and parameters, so that `str` prints it faithfully, too. -/
inductive Nice : Bool → Expr → Prop
  | const {q} (v) : Nice q (.const v)
  | var {q} (x) : Nice q (.var x)
  | param (i n) : Nice false (.param i n)
  | neg {q e} : Nice true e → Nice q (.un .neg e)
  | bin {q o l r} : o ≠ .or → o ≠ .pow → (q = true → o ≠ .div ∧ o ≠ .and) → Nice q l → Nice q r → Nice q (.bin o l r)
  | acc {q k c es} : 2 ≤ es.length → (c ≠ k.neutral ∨ 3 ≤ es.length) → some c ≠ k.absorbing →
      (∀ e ∈ es, Nice q e) → (∀ e ∈ es, ∀ v, e ≠ .const v) → Nice q (.acc k c es)

theorem accLvl_ok {k : AccKind} {c : Int} {n : Nat} {ls : List Nat} (hlen : ls.length = n) (h1 : 2 ≤ n) (h2 : c ≠ k.neutral ∨ 3 ≤ n) :
    accLvl k c ls = some 10 := by
  unfold accLvl
  match ls, hlen with
  | [], hlen => simp at hlen; omega
  | [_], hlen => simp at hlen; omega
  | [_, _], hlen =>
    simp at hlen
    have : c ≠ k.neutral := by rcases h2 with h | h; exact h; omega
    simp [this]
  | _ :: _ :: _ :: _, _ => by_cases hc : c = k.neutral <;> simp [hc]

theorem nice_str {q : Bool} {e : Expr} (h : Nice q e) : q = true → ∃ L, strLvl e = some L ∧ 8 ≤ L := by
  induction h with
  | const v => exact fun _ => ⟨_, rfl, intLvl_pos v⟩
  | var x => exact fun _ => ⟨10, rfl, by omega⟩
  | param i n => intro h; cases h
  | neg h ih =>
    intro _
    obtain ⟨L, hL, _⟩ := ih rfl
    exact ⟨8, by simp [strLvl, hL], by omega⟩
  | @bin q o l r h1 h2 h3 _ _ ihl ihr =>
    intro hq
    obtain ⟨a, ha, ha'⟩ := ihl hq
    obtain ⟨b, hb, hb'⟩ := ihr hq
    obtain ⟨m, _, hm, hneed⟩ := bop_level o h1 h2
    refine ⟨10, ?_, by omega⟩
    simp only [strLvl, ha, hb, h1, (h3 hq).1, (h3 hq).2, or_self, if_false, hneed]
    rw [if_pos]; omega
  | @acc q k c es h1 h2 _ _ _ ih =>
    intro hq
    have : ∃ ls, strLvls es = some ls ∧ ls.length = es.length := by
      clear h1 h2
      induction es with
      | nil => exact ⟨[], rfl, rfl⟩
      | cons e es ihl =>
        obtain ⟨l, hl, _⟩ := ih e (by simp) hq
        obtain ⟨ls, hls, hlen⟩ := ihl (by simp_all) (by simp_all) (fun e he => ih e (by simp [he]))
        exact ⟨l :: ls, by simp [strLvls, hl, hls], by simp [hlen]⟩
    obtain ⟨ls, hls, hlen⟩ := this
    refine ⟨10, ?_, by omega⟩
    simp only [strLvl, hls]
    exact accLvl_ok hlen h1 h2

theorem nice_lvl {ρ : Store} {q : Bool} {e : Expr} (h : Nice q e) : ∃ L, pyLvl ρ e = some L ∧ 8 ≤ L := by
  induction h with
  | const v => exact ⟨_, rfl, intLvl_pos v⟩
  | var x => exact ⟨10, rfl, by omega⟩
  | param i n => exact ⟨_, rfl, intLvl_pos (ρ i)⟩
  | neg h ih =>
    obtain ⟨L, hL, _⟩ := nice_str h rfl
    exact ⟨8, by simp [pyLvl, strLvl, hL], by omega⟩
  | @bin q o l r h1 h2 h3 _ _ ihl ihr =>
    obtain ⟨a, ha, ha'⟩ := ihl
    obtain ⟨b, hb, hb'⟩ := ihr
    obtain ⟨m, _, hm, hneed⟩ := bop_level o h1 h2
    refine ⟨10, ?_, by omega⟩
    simp only [pyLvl, ha, hb, h1, if_false, hneed]
    rw [if_pos]; omega
  | @acc q k c es h1 h2 _ _ _ ih =>
    have : ∃ ls, pyLvls ρ es = some ls ∧ ls.length = es.length := by
      clear h1 h2
      induction es with
      | nil => exact ⟨[], rfl, rfl⟩
      | cons e es ihl =>
        obtain ⟨l, hl, _⟩ := ih e (by simp)
        obtain ⟨ls, hls, hlen⟩ := ihl (by simp_all) (by simp_all) (fun e he => ih e (by simp [he]))
        exact ⟨l :: ls, by simp [pyLvls, hl, hls], by simp [hlen]⟩
    obtain ⟨ls, hls, hlen⟩ := this
    refine ⟨10, ?_, by omega⟩
    simp only [pyLvl, hls]
    exact accLvl_ok hlen h1 h2

theorem Nice.weaken {q : Bool} {e : Expr} (h : Nice q e) : Nice false e := by
  induction h with
  | const v => exact .const v
  | var x => exact .var x
  | param i n => exact .param i n
  | neg h _ => exact .neg h
  | bin h1 h2 _ _ _ ihl ihr => exact .bin h1 h2 (by simp) ihl ihr
  | acc h1 h2 h3 _ h5 ih => exact .acc h1 h2 h3 ih h5

section
variable {q : Bool}

def NonConst (e : Expr) : Prop := ∀ v, e ≠ .const v

theorem op_absorbing_ne (k : AccKind) {a b : Int} (ha : some a ≠ k.absorbing) (hb : some b ≠ k.absorbing) :
    some (k.op a b) ≠ k.absorbing := by
  cases k <;> simp_all [AccKind.op, AccKind.absorbing]

theorem accInit_nice (k : AccKind) (es : List Expr) (c : Int) (elist : List Expr)
    (h : ∀ e ∈ es, Nice q e ∧ NonConst e) (he : ∀ e ∈ elist, Nice q e ∧ NonConst e) (hc : some c ≠ k.absorbing) :
    (∀ e ∈ (accInit k es c elist).2, Nice q e ∧ NonConst e) ∧ some (accInit k es c elist).1 ≠ k.absorbing ∧
    es.length + elist.length ≤ (accInit k es c elist).2.length ∧
    ((accInit k es c elist).1 = c ∨ es.length + elist.length < (accInit k es c elist).2.length) := by
  fun_induction accInit k es c elist with
  | case1 c elist => exact ⟨he, hc, by simp, .inl rfl⟩
  | case2 => exact absurd rfl ((h _ List.mem_cons_self).2 _)
  | case3 => exact absurd rfl ((h _ List.mem_cons_self).2 _)
  | case4 => exact absurd rfl ((h _ List.mem_cons_self).2 _)
  | case5 k' c' es c elist ih =>
    have := (h _ List.mem_cons_self).1
    cases this with | acc h1 => simp at h1
  | case6 c' es' es c elist hne hc' =>
    have := (h _ List.mem_cons_self).1
    cases this with | acc _ _ h3 => exact absurd hc' h3
  | case7 c' es' es c elist hne hc' ih =>
    have hn := (h _ List.mem_cons_self).1
    cases hn with
    | acc h1 h2 h3 h4 h5 =>
      have := ih (fun e he => h e (by simp [he]))
        (by intro e h; rw [List.mem_append] at h; rcases h with h | h; exact he e h; exact ⟨h4 e h, h5 e h⟩)
        (by split; exact op_absorbing_ne k hc h3; exact hc)
      simp only [List.length_append, List.length_cons] at this ⊢
      refine ⟨this.1, this.2.1, by omega, .inr (by omega)⟩
  | case8 k' c' es' es c elist hne hk ih =>
    have hh := h _ (List.mem_cons_self)
    have := ih (fun e he => h e (by simp [he]))
        (by intro e h; rw [List.mem_append] at h; rcases h with h | h; exact he e h; simp at h; subst h; exact hh) hc
    simp only [List.length_append, List.length_cons, List.length_nil] at this ⊢
    refine ⟨this.1, this.2.1, by omega, ?_⟩
    rcases this.2.2.2 with h | h; exact .inl h; exact .inr (by omega)
  | case9 e es c elist _ _ _ ih =>
    have hh := h _ (List.mem_cons_self)
    have := ih (fun e he => h e (by simp [he]))
        (by intro e h; rw [List.mem_append] at h; rcases h with h | h; exact he e h; simp at h; subst h; exact hh) hc
    simp only [List.length_append, List.length_cons, List.length_nil] at this ⊢
    refine ⟨this.1, this.2.1, by omega, ?_⟩
    rcases this.2.2.2 with h | h; exact .inl h; exact .inr (by omega)

theorem accLoop_nice (k : AccKind) (es : List Expr) (c : Int) (elist : List Expr)
    (h : ∀ e ∈ es, Nice q e) (he : ∀ e ∈ elist, Nice q e ∧ NonConst e) (hc : some c ≠ k.absorbing) :
    (∀ e ∈ (accLoop k es c elist).2, Nice q e ∧ NonConst e) ∧
    ((accLoop k es c elist).2 = [] ∨ some (accLoop k es c elist).1 ≠ k.absorbing) := by
  have snoc : ∀ (e : Expr) (elist : List Expr), Nice q e → NonConst e → (∀ e ∈ elist, Nice q e ∧ NonConst e) →
      ∀ e' ∈ elist ++ [e], Nice q e' ∧ NonConst e' := by
    intro e elist h1 h2 h3 e' h
    rw [List.mem_append] at h; rcases h with h | h; exact h3 e' h; simp at h; subst h; exact ⟨h1, h2⟩
  have app : ∀ (es' elist : List Expr), (∀ e ∈ es', Nice q e) → (∀ e ∈ es', ∀ v, e ≠ .const v) →
      (∀ e ∈ elist, Nice q e ∧ NonConst e) → ∀ e' ∈ elist ++ es', Nice q e' ∧ NonConst e' := by
    intro es' elist h1 h2 h3 e' h
    rw [List.mem_append] at h; rcases h with h | h; exact h3 e' h; exact ⟨h1 e' h, h2 e' h⟩
  fun_induction accLoop k es c elist with
  | case1 c elist => exact ⟨he, .inr hc⟩
  | case2 es c elist ih => exact ih (fun e he => h e (by simp [he])) he hc
  | case3 v es c elist h1 h2 => simp
  | case4 v es c elist h1 h2 h3 => simp
  | case5 v es c elist h1 h2 h3 ih => exact ih (fun e he => h e (by simp [he])) he h3
  | case6 c' es' es c elist hemp ih =>
    have hn := h _ (List.mem_cons_self)
    cases hn with | acc h1 => cases es' with | nil => simp at h1 | cons => simp at hemp
  | case7 c' es' es c elist hemp h1 h2 => simp
  | case8 c' es' es c elist hemp h1 h2 ih =>
    have hn := h _ (List.mem_cons_self)
    cases hn with
    | acc g1 g2 g3 g4 g5 => exact ih (fun e he => h e (by simp [he])) (app _ _ g4 g5 he) h2
  | case9 c' es' es c elist hemp h1 ih =>
    have hn := h _ (List.mem_cons_self)
    cases hn with
    | acc g1 g2 g3 g4 g5 => exact ih (fun e he => h e (by simp [he])) (app _ _ g4 g5 he) hc
  | case10 k' c' es' es c elist hk ih =>
    exact ih (fun e he => h e (by simp [he])) (snoc _ _ (h _ List.mem_cons_self) (by intro v; simp) he) hc
  | case11 e es c elist h1 h2 ih =>
    exact ih (fun e he => h e (by simp [he])) (snoc _ _ (h _ List.mem_cons_self) (by intro v hv; exact h1 v hv) he) hc

theorem binop_ne (k : AccKind) : k.binop ≠ .or ∧ k.binop ≠ .pow ∧ k.binop ≠ .div ∧ k.binop ≠ .and := by cases k <;> simp [AccKind.binop]

theorem mkAcc_nice (k : AccKind) (es : List Expr) (c : Int) (h : ∀ e ∈ es, Nice q e ∧ NonConst e)
    (hc : some c ≠ k.absorbing) (hlen : 2 ≤ es.length) (h3 : c ≠ k.neutral ∨ 3 ≤ es.length) : Nice q (mkAcc k es c) := by
  obtain ⟨h1, h2, h4, h5⟩ := accInit_nice k es c [] h (by simp) hc
  simp only [List.length_nil, Nat.add_zero] at h4 h5
  refine .acc (by omega) ?_ h2 (fun e he => (h1 e he).1) (fun e he => (h1 e he).2)
  rcases h5 with h5 | h5
  · rcases h3 with h3 | h3
    · rw [h5]; exact .inl h3
    · exact .inr (by omega)
  · exact .inr (by omega)

def NiceO (q : Bool) (o : Obj) : Prop := Nice q (coerce o)

theorem makeAcc_nice (k : AccKind) (l r : Obj) (hl : NiceO q l) (hr : NiceO q r) : Nice q (makeAcc k l r) := by
  have hexp : ∀ o : Obj, NiceO q o → ∀ e ∈ expandOperand k o, Nice q e := by
    intro o ho e he
    unfold expandOperand at he
    split at he
    · split at he
      · cases ho with | bin _ _ _ h1 h2 => simp at he; rcases he with rfl | rfl <;> assumption
      · simp at he; subst he; exact ho
    · simp at he; subst he; exact ho
  have hn : some k.neutral ≠ k.absorbing := by cases k <;> simp [AccKind.neutral, AccKind.absorbing]
  have hh := accLoop_nice k (expandOperand k l ++ expandOperand k r) k.neutral []
    (by intro e he; rw [List.mem_append] at he; rcases he with h | h; exact hexp l hl e h; exact hexp r hr e h)
    (by simp) hn
  unfold makeAcc
  generalize accLoop k (expandOperand k l ++ expandOperand k r) k.neutral [] = p at hh
  obtain ⟨c, elist⟩ := p
  simp only at hh ⊢
  obtain ⟨h1, h2⟩ := hh
  split
  · exact .const _
  · rename_i e
    split
    · exact (h1 e (by simp)).1
    · exact .bin (binop_ne k).1 (binop_ne k).2.1 (fun _ => (binop_ne k).2.2) (.const _) (h1 e (by simp)).1
  · rename_i e1 e2
    split
    · exact .bin (binop_ne k).1 (binop_ne k).2.1 (fun _ => (binop_ne k).2.2) (h1 e1 (by simp)).1 (h1 e2 (by simp)).1
    · rename_i hc
      exact mkAcc_nice k _ _ h1 (h2.resolve_left (by simp)) (by simp) (.inl hc)
  · rename_i hes1 hes2 hes3
    have hlen : 3 ≤ elist.length := by
      match elist with
      | [] => exact absurd rfl hes1
      | [e] => exact absurd rfl (hes2 e)
      | [e1, e2] => exact absurd rfl (hes3 e1 e2)
      | _ :: _ :: _ :: _ => simp
    have hne : elist ≠ [] := by rintro rfl; simp at hlen
    split
    · exact mkAcc_nice k _ _ h1 hn (by omega) (.inr hlen)
    · exact mkAcc_nice k _ _ h1 (h2.resolve_left hne) (by omega) (.inr hlen)

theorem apply_nice {o : ArithOp} {a b c : Obj} (h : o.apply a b = .ok c) (ha : NiceO q a) (hb : NiceO q b)
    (hq : q = true → o ≠ .div ∧ o ≠ .and) (hz : o = .sub → (a ≠ .int 0 ∧ a ≠ .expr (.const 0)) ∨ NiceO true b) : NiceO q c := by
  have C : ∀ n, NiceO q (.int n) := fun n => .const n
  cases o with
  | add =>
    simp only [ArithOp.apply, Except.ok.injEq] at h; subst h
    have key : ∀ e o, Nice q e → NiceO q o → Nice q (e.pyAdd o) := by
      intro e o he ho
      unfold Expr.pyAdd
      split
      · split
        · exact ho
        · split
          · exact .const _
          · exact makeAcc_nice _ _ _ he ho
      · split
        · exact he
        · exact makeAcc_nice _ _ _ he ho
      · exact makeAcc_nice _ _ _ he ho
    match a, b with
    | .int _, .int _ => exact C _
    | .int _, .expr _ => exact key _ _ (.const _) hb
    | .expr _, _ => exact key _ _ ha hb
  | mul =>
    simp only [ArithOp.apply, Except.ok.injEq] at h; subst h
    have key : ∀ e o, Nice q e → NiceO q o → Nice q (e.pyMul o) := by
      intro e o he ho
      unfold Expr.pyMul
      split
      · split
        · exact .const _
        · split
          · exact ho
          · split
            · exact .const _
            · exact makeAcc_nice _ _ _ he ho
      · split
        · exact .const _
        · split
          · exact he
          · exact makeAcc_nice _ _ _ he ho
      · exact makeAcc_nice _ _ _ he ho
    match a, b with
    | .int _, .int _ => exact C _
    | .int _, .expr _ => exact key _ _ (.const _) hb
    | .expr _, _ => exact key _ _ ha hb
  | sub =>
    simp only [ArithOp.apply, Except.ok.injEq] at h; subst h
    have hz := hz rfl
    have key : ∀ e o, Nice q e → NiceO q o → (e ≠ .const 0 ∨ NiceO true o) → Nice q (e.pySub o) := by
      intro e o he ho hne
      unfold Expr.pySub
      split
      · split
        · rename_i h0; subst h0; exact .neg (hne.resolve_left (by simp))
        · split
          · exact .const _
          · exact .bin (by simp) (by simp) (by simp) he ho
      · split
        · exact he
        · exact .bin (by simp) (by simp) (by simp) he ho
      · exact .bin (by simp) (by simp) (by simp) he ho
    match a, b with
    | .int _, .int _ => exact C _
    | .int n, .expr _ => exact key _ _ (.const _) hb (hz.imp_left (fun hz h => by injection h with h; subst h; exact hz.1 rfl))
    | .expr e, _ => exact key _ _ ha hb (hz.imp_left (fun hz h => by subst h; exact hz.2 rfl))
  | div =>
    simp only [ArithOp.apply] at h
    match a, b with
    | .int _, .int _ => simp only [Obj.div, bind_eq_ok] at h; obtain ⟨_, _, h⟩ := h; cases h; exact C _
    | .int _, .expr _ => simp [Obj.div, Obj.floorDiv] at h
    | .expr e, b =>
      simp only [Obj.div, bind_eq_ok] at h; obtain ⟨e', he', h⟩ := h; cases h
      change Nice q e'
      unfold Expr.pyDiv at he'
      split at he'
      · split at he'
        · cases he'; exact .const _
        · split at he'
          · rw [bind_eq_ok] at he'; obtain ⟨_, _, h⟩ := he'; cases h; exact .const _
          · cases he'; exact .bin (by simp) (by simp) (fun h => absurd rfl (hq h).1) ha hb
      · split at he'
        · cases he'; exact ha
        · cases he'; exact .bin (by simp) (by simp) (fun h => absurd rfl (hq h).1) ha hb
      · cases he'; exact .bin (by simp) (by simp) (fun h => absurd rfl (hq h).1) ha hb
  | mod =>
    simp only [ArithOp.apply] at h
    have key : ∀ e o e', Nice q e → NiceO q o → Expr.pyMod e o = .ok e' → Nice q e' := by
      intro e o e' he ho h
      unfold Expr.pyMod at h
      split at h
      · rw [bind_eq_ok] at h; obtain ⟨_, _, h⟩ := h; cases h; exact .const _
      · cases h; exact .bin (by simp) (by simp) (by simp) he ho
    match a, b with
    | .int _, .int _ => simp only [Obj.mod, bind_eq_ok] at h; obtain ⟨_, _, h⟩ := h; cases h; exact C _
    | .int _, .expr _ =>
      simp only [Obj.mod, bind_eq_ok] at h; obtain ⟨e', he', h⟩ := h; cases h; exact key _ _ _ (.const _) hb he'
    | .expr e, b =>
      simp only [Obj.mod, bind_eq_ok] at h; obtain ⟨e', he', h⟩ := h; cases h; exact key _ _ _ ha hb he'
  | cmp c =>
    simp only [ArithOp.apply, Except.ok.injEq] at h; subst h
    have hcb : ∀ c : Cmp, c.bop ≠ .or ∧ c.bop ≠ .pow ∧ c.bop ≠ .div ∧ c.bop ≠ .and := by intro c; cases c <;> simp [Cmp.bop]
    have key : ∀ (c : Cmp) e o, Nice q e → NiceO q o → NiceO q (Expr.pyCmp c e o) := by
      intro c e o he ho
      unfold Expr.pyCmp
      split
      · exact C _
      · exact .bin (hcb c).1 (hcb c).2.1 (fun _ => (hcb c).2.2) he ho
    unfold Obj.cmp
    split
    · exact C _
    · exact key _ _ _ hb (C _)
    · exact key _ _ _ hb ha
    · exact key _ _ _ ha hb
  | and =>
    simp only [ArithOp.apply, Except.ok.injEq] at h; subst h
    unfold Obj.and
    split
    · exact C _
    · exact .bin (by simp) (by simp) (fun h => absurd rfl (hq h).2) (.const _) hb
    · unfold Expr.pyAnd
      split
      · exact C _
      · exact .bin (by simp) (by simp) (fun h => absurd rfl (hq h).2) ha hb

end

theorem plain_nice {t : OpTerm} {o : Obj} (h : t.build = .ok o) (hp : t.plain) : NiceO true o := by
  induction t generalizing o with
  | int n => cases h; exact .const n
  | var x => cases h; exact .var x
  | param i n => exact hp.elim
  | bin op l r ihl ihr =>
    rw [OpTerm.build, bind_eq_ok] at h
    obtain ⟨a, ha, h⟩ := h
    rw [bind_eq_ok] at h
    obtain ⟨b, hb, h⟩ := h
    exact apply_nice h (ihl ha hp.2.2.1) (ihr hb hp.2.2.2) (fun _ => ⟨hp.1, hp.2.1⟩) (fun _ => .inr (ihr hb hp.2.2.2))

theorem build_nice {t : OpTerm} {o : Obj} (h : t.build = .ok o) (hz : t.noZeroMinus) : NiceO false o := by
  induction t generalizing o with
  | int n => cases h; exact .const n
  | var x => cases h; exact .var x
  | param i n => cases h; exact .param i n
  | bin op l r ihl ihr =>
    rw [OpTerm.build, bind_eq_ok] at h
    obtain ⟨a, ha, h⟩ := h
    rw [bind_eq_ok] at h
    obtain ⟨b, hb, h⟩ := h
    have hz' : l.noZeroMinus ∧ r.noZeroMinus := by
      cases op with
      | sub => simp only [OpTerm.noZeroMinus] at hz; exact ⟨hz.1, hz.2.1⟩
      | _ => exact hz
    refine apply_nice h (ihl ha hz'.1) (ihr hb hz'.2) (by simp) ?_
    rintro rfl
    simp only [OpTerm.noZeroMinus] at hz
    rcases hz.2.2 with hz | hz
    · left
      constructor
      · rintro rfl; exact hz.1 ha
      · rintro rfl; exact hz.2 ha
    · exact .inr (plain_nice hb hz)

theorem build_vars {t : OpTerm} {o : Obj} (h : t.build = .ok o) (x : Name) (hx : x ∈ objVars o) : x ∈ t.names := by
  induction t generalizing o with
  | int n => cases h; simp [objVars, coerce, Expr.vars] at hx
  | var y => cases h; simpa [objVars, coerce, Expr.vars, OpTerm.names] using hx
  | param i n => cases h; simp [objVars, coerce, Expr.vars] at hx
  | bin op l r ihl ihr =>
    rw [OpTerm.build, bind_eq_ok] at h
    obtain ⟨a, ha, h⟩ := h
    rw [bind_eq_ok] at h
    obtain ⟨b, hb, h⟩ := h
    have : x ∈ objVars a ∨ x ∈ objVars b := by
      cases op with
      | add => cases h; exact C03_vars_add _ _ _ hx
      | sub => cases h; exact C03_vars_sub _ _ _ hx
      | mul => cases h; exact C03_vars_mul _ _ _ hx
      | div => exact C03_vars_div _ _ _ _ h hx
      | mod => exact C03_vars_mod _ _ _ _ h hx
      | cmp c => cases h; exact C03_vars_cmp _ _ _ _ hx
      | and => cases h; exact C03_vars_and _ _ _ hx
    rw [OpTerm.names, List.mem_append]
    exact this.imp (ihl ha) (ihr hb)

/-- Missing from the full claim: subtractions `0 - …` with a division, a conjunction or a parameter on the right (`C06_refuted`,
`C06_refuted_param`) and variables named after a keyword
or a helper (`NameOk`, see C07). -/
theorem C06_partial (t : OpTerm) (e : Expr) (h : t.build = .ok (.expr e)) (hn : ∀ x ∈ t.names, NameOk x)
    (hz : t.noZeroMinus) (ρ : Store) (σ : Subst) (v : Int) (hv : e.eval ρ σ = .ok v) :
    (asFunction ρ e).call σ = .ok v := by
  have hN : Nice false e := build_nice h hz
  obtain ⟨L, hL, _⟩ := nice_lvl (ρ := ρ) hN
  refine (C05_partial (e := e) ⟨?_, fun x hx => hn x (build_vars h x hx)⟩).2 σ v hv
  rw [hL]; rfl

-- non-vacuity: (5 - x) / 2 * y + p + y % 3 <= p
example : (OpTerm.bin (.cmp .le) (.bin .add (.bin .add (.bin .mul (.bin .div (.bin .sub (.int 5) (.var "x")) (.int 2))
      (.var "y")) (.param 0 "p")) (.bin .mod (.var "y") (.int 3))) (.param 0 "p")).noZeroMinus := by
  simp [OpTerm.noZeroMinus, OpTerm.build]
-- 0 - (x + y * 2)
example : (OpTerm.bin .sub (.int 0) (.bin .add (.var "x") (.bin .mul (.var "y") (.int 2)))).noZeroMinus := by
  simp [OpTerm.noZeroMinus, OpTerm.plain]
example : ∃ e, (OpTerm.bin (.cmp .le) (.bin .add (.bin .add (.bin .mul (.bin .div (.bin .sub (.int 5) (.var "x")) (.int 2))
      (.var "y")) (.param 0 "p")) (.bin .mod (.var "y") (.int 3))) (.param 0 "p")).build = .ok (.expr e) ∧
      e.eval (fun _ => -1) [("x", 1), ("y", 4)] = .ok 0 := ⟨_, rfl, by decide⟩

end Satisfy.Props
