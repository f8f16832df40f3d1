import Verif.Constraint
import Verif.Props.Compile
/-!
# C80: what compile() does to a constraint
-/

namespace Satisfy.Props
open Satisfy

/-- What can happen to constraints and parameters: `c.compile()` and `parameter.value = v`. -/
inductive CEvent where
  | compile (c : Constraint)
  | assign (i : Nat) (v : Int)

/-- One after the other, with the functions of the model. -/
def happens (h : Heap) : List CEvent → Heap
  | [] => h
  | .compile c :: es => happens (c.compile h) es
  | .assign i v :: es => happens (h.setParam i v) es

/-- The value of a parameter: the last one assigned, or the one it had. -/
def ValueAfter (ρ : Store) (es : List CEvent) (i : Nat) (v : Int) : Prop :=
  (∃ before after, es = before ++ .assign i v :: after ∧ ∀ w, .assign i w ∉ after) ∨ (∀ w, .assign i w ∉ es) ∧ v = ρ i

/-- Objects with the same identity are the same. -/
def OneObject (c : Constraint) (es : List CEvent) : Prop := ∀ d, .compile d ∈ es → d.id = c.id → d = c

theorem happens_append (h : Heap) (es fs : List CEvent) : happens h (es ++ fs) = happens (happens h es) fs := by
  induction es generalizing h with
  | nil => rfl
  | cons e es ih => cases e <;> exact ih _

theorem compile_keeps_params (h : Heap) (c : Constraint) : (c.compile h).params = h.params := by
  unfold Constraint.compile; split <;> rfl

theorem compile_keeps_fns (h : Heap) (c : Constraint) (i : Nat) (hi : i ≠ c.id) : (c.compile h).fns i = h.fns i := by
  unfold Constraint.compile
  split
  · simp [hi]
  · rfl

theorem happens_params (h : Heap) (es : List CEvent) (i : Nat) : ValueAfter h.params es i ((happens h es).params i) := by
  induction es generalizing h with
  | nil => exact .inr ⟨by simp, rfl⟩
  | cons e es ih =>
    cases e with
    | compile c =>
      have := ih (c.compile h)
      rw [compile_keeps_params] at this
      rcases this with ⟨b, a, e, h1⟩ | ⟨h1, h2⟩
      · exact .inl ⟨.compile c :: b, a, by rw [happens, List.cons_append, ← e], h1⟩
      · refine .inr ⟨fun w hw => ?_, h2⟩
        rcases List.mem_cons.1 hw with h | h
        · cases h
        · exact h1 w h
    | assign j v =>
      rcases ih (h.setParam j v) with ⟨b, a, e, h1⟩ | ⟨h1, h2⟩
      · exact .inl ⟨.assign j v :: b, a, by rw [happens, List.cons_append, ← e], h1⟩
      · rw [happens, h2]
        by_cases hij : i = j
        · subst hij
          exact .inl ⟨[], es, by simp [Heap.setParam], h1⟩
        · refine .inr ⟨?_, by simp [Heap.setParam, hij]⟩
          intro w hw
          rcases List.mem_cons.1 hw with h | h
          · cases h; exact hij rfl
          · exact h1 w h

theorem happens_fns (h : Heap) {c : Constraint} {es : List CEvent} (ho : OneObject c es) (hc : .compile c ∉ es) :
    (happens h es).fns c.id = h.fns c.id := by
  induction es generalizing h with
  | nil => rfl
  | cons e es ih =>
    have ih := fun h => ih h (fun d hd => ho d (List.mem_cons_of_mem _ hd)) (fun hm => hc (List.mem_cons_of_mem _ hm))
    cases e with
    | assign i v => exact ih _
    | compile d =>
      rw [happens, ih]
      refine compile_keeps_fns h d c.id (fun e => hc ?_)
      rw [ho d (by simp) e.symm]
      simp

/-- C80 — a constraint that was not compiled is compiled afterwards exactly if it is an expression and `compile()` was called. -/
theorem C80_is_compiled (h : Heap) (c : Constraint) (hnew : h.fns c.id = none) (es : List CEvent) (ho : OneObject c es) :
    c.isCompiled (happens h es) = true ↔ (∃ e, c.kind = .expr e) ∧ .compile c ∈ es := by
  have gen : ∀ e, c.kind = .expr e → ∀ h : Heap, (((happens h es).fns c.id).isSome = true ↔ (h.fns c.id).isSome = true ∨ .compile c ∈ es) := by
    intro e he
    clear hnew
    induction es with
    | nil => intro h; simp [happens]
    | cons x es ih =>
      intro h
      have ih := ih (fun d hd => ho d (List.mem_cons_of_mem _ hd))
      cases x with
      | assign i v => rw [happens, ih]; simp [Heap.setParam]
      | compile d =>
        rw [happens, ih]
        by_cases hd : d.id = c.id
        · obtain rfl := ho d (by simp) hd
          simp [Constraint.compile, he]
        · rw [compile_keeps_fns h d c.id (fun e => hd e.symm)]
          have : d ≠ c := fun e => hd (by rw [e])
          simp [this.symm]
  unfold Constraint.isCompiled
  cases hk : c.kind with
  | expr e => simp [gen e hk h, hnew]
  | const b => simp
  | allDiff ns => simp

/-- Before that an expression is evaluated with the present values of the parameters. -/
theorem C80_before (h : Heap) (c : Constraint) (hnew : h.fns c.id = none) {e : Expr} (he : c.kind = .expr e) (es : List CEvent) (ho : OneObject c es)
    (hc : .compile c ∉ es) :
    ∃ ρ : Store, (∀ i, ValueAfter h.params es i (ρ i)) ∧ ∀ σ, c.evaluate (happens h es) σ = e.eval ρ σ := by
  refine ⟨_, happens_params h es, fun σ => ?_⟩
  simp only [Constraint.evaluate, he, happens_fns h ho hc, hnew]

/-- After it nothing matters but the last `compile()`: neither assignments to parameters nor other constraints. -/
theorem C80_after (h : Heap) (c : Constraint) {e : Expr} (he : c.kind = .expr e) (before after : List CEvent) (ho : OneObject c after)
    (hc : .compile c ∉ after) (σ : Subst) :
    c.evaluate (happens h (before ++ .compile c :: after)) σ = c.evaluate (happens h (before ++ [.compile c])) σ := by
  have e1 : happens h (before ++ .compile c :: after) = happens (c.compile (happens h before)) after := by rw [happens_append]; rfl
  have e2 : happens h (before ++ [.compile c]) = c.compile (happens h before) := by rw [happens_append]; rfl
  rw [e1, e2]
  have : (c.compile (happens h before)).fns c.id ≠ none := by simp [Constraint.compile, he]
  simp only [Constraint.evaluate, he, happens_fns _ ho hc]
  cases hf : (c.compile (happens h before)).fns c.id with
  | none => exact absurd hf this
  | some f => rfl

/-- … and the value is that for the parameters at the last `compile()`, if the expression is one that compiles faithfully (C05). -/
theorem C80_value (h : Heap) (c : Constraint) {e : Expr} (he : c.kind = .expr e) (before after : List CEvent) (ho : OneObject c after)
    (hc : .compile c ∉ after) :
    ∃ ρ : Store, (∀ i, ValueAfter h.params before i (ρ i)) ∧
      (e.Safe ρ → ∀ σ v, e.eval ρ σ = .ok v → c.evaluate (happens h (before ++ .compile c :: after)) σ = .ok v) := by
  refine ⟨_, happens_params h before, fun hs σ v hv => ?_⟩
  rw [C80_after h c he before after ho hc, happens_append]
  have := (C05_partial hs).2 σ v hv
  simpa [happens, Constraint.evaluate, he, Constraint.compile] using this

/-- The others are never compiled, and are not evaluated differently whatever happens. -/
theorem C80_others (h : Heap) (c : Constraint) (hk : ∀ e, c.kind ≠ .expr e) (es : List CEvent) :
    c.isCompiled (happens h es) = false ∧ ∀ σ, c.evaluate (happens h es) σ = c.evaluate h σ := by
  unfold Constraint.isCompiled Constraint.evaluate
  cases hc : c.kind with
  | expr e => exact absurd hc (hk e)
  | const b => exact ⟨rfl, fun _ => rfl⟩
  | allDiff ns => exact ⟨rfl, fun _ => rfl⟩

/-! The parameter is 1, `x == p` is compiled, the parameter becomes 2: `x = 1` still is a solution, and `x = 2` is none. -/

def conEq : Constraint := ⟨0, .expr (.bin .eq (.var "x") (.param 0 "p"))⟩

def conHeap : Heap := ⟨fun _ => 0, fun _ => none, 1, 1⟩

example : conEq.isCompiled (happens conHeap [.assign 0 1, .compile conEq, .assign 0 2]) = true :=
  (C80_is_compiled conHeap conEq rfl _ (by intro d hd _; simpa using hd)).2 ⟨⟨_, rfl⟩, by simp⟩

example : conEq.isCompiled (happens conHeap [.assign 0 1, .compile ⟨1, .const true⟩]) = false := by
  rw [← Bool.not_eq_true, C80_is_compiled conHeap conEq rfl _ (by intro d hd h; simp at hd; subst hd; cases h)]
  rintro ⟨_, h⟩
  simp [conEq] at h

example : conEq.evaluate (happens conHeap [.assign 0 1, .compile conEq, .assign 0 2]) [("x", 1)] = .ok 1 ∧
    conEq.evaluate (happens conHeap [.assign 0 1, .compile conEq, .assign 0 2]) [("x", 2)] = .ok 0 ∧
    conEq.evaluate (happens conHeap [.assign 0 1, .assign 0 2]) [("x", 2)] = .ok 1 := by decide +kernel

example : (Constraint.mk 3 (.allDiff ["x", "y"])).isCompiled (happens conHeap [.compile ⟨3, .allDiff ["x", "y"]⟩]) = false :=
  (C80_others conHeap _ (by intro e h; cases h) _).1

end Satisfy.Props
