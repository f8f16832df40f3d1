import Verif.Constraint
import Verif.Lemmas.Dict
import Verif.Lemmas.Vars
import Verif.Lemmas.Compile
import Mathlib.Data.List.Perm.Subperm
/-! Lemmas about constraints: locality of `evaluate`, meaning of all-different. -/

namespace Satisfy

/-- The compiled function stored for `c`, if any, was made from `c`'s own expression (at some parameter
values). Holds of every object the library creates. -/
def FnOk (h : Heap) (c : Constraint) : Prop :=
  ∀ e f, c.kind = .expr e → h.fns c.id = some f → ∃ ρ, f = asFunction ρ e

theorem call_congr (ρ : Store) (e : Expr) {σ σ' : Subst} (h : ∀ x ∈ e.vars, σ.get? x = σ'.get? x) :
    (asFunction ρ e).call σ = (asFunction ρ e).call σ' := by
  unfold asFunction
  split
  · rfl
  · split
    · rename_i a _
      simp only [Compiled.call]
      have h1 : e.vars.all (fun x => σ.has x) = e.vars.all (fun x => σ'.has x) := by
        have : ∀ l : List Name, (∀ x ∈ l, σ.get? x = σ'.get? x) →
            l.all (fun x => σ.has x) = l.all (fun x => σ'.has x) := by
          intro l
          induction l with
          | nil => intro _; rfl
          | cons y l ih =>
            intro hl
            simp only [List.all_cons, Dict.has, hl y (by simp)]
            rw [show (l.all fun x => (σ.get? x).isSome) = _ from ih (fun x hx => hl x (by simp [hx]))]
            rfl
        exact this _ h
      have h2 : (fun x => if x ∈ e.vars then σ.get? x else none) = (fun x => if x ∈ e.vars then σ'.get? x else none) := by
        funext x; split
        · rename_i hx; exact h x hx
        · rfl
      rw [h1, h2]
    · rfl

theorem lookupAll_congr {σ σ' : Subst} {l : List Name} (h : ∀ x ∈ l, σ.get? x = σ'.get? x) :
    lookupAll σ l = lookupAll σ' l := by
  induction l with
  | nil => rfl
  | cons x l ih =>
    simp only [lookupAll, h x (by simp), ih (fun y hy => h y (by simp [hy]))]

/-- The verdict of a constraint depends only on its own variables. -/
theorem evaluate_congr {h : Heap} {c : Constraint} (hf : FnOk h c) {σ σ' : Subst}
    (hs : ∀ x ∈ c.vars, σ.get? x = σ'.get? x) : c.evaluate h σ = c.evaluate h σ' := by
  obtain ⟨i, k⟩ := c
  cases k with
  | const b => rfl
  | allDiff ns => simp only [Constraint.evaluate]; rw [show lookupAll σ (dedup ns) = _ from lookupAll_congr hs]
  | expr e =>
    simp only [Constraint.evaluate]
    cases hh : h.fns i with
    | none => exact eval_congr _ _ _ e hs
    | some f =>
      obtain ⟨ρ, hf⟩ := hf e f rfl hh
      simp only [hf]
      exact call_congr ρ _ hs

theorem unsat_of_missing {h : Heap} {c : Constraint} {σ : Subst} {x : Name} (hx : x ∈ c.vars)
    (hm : σ.get? x = none) : c.unsatisfied h σ = .ok false := by
  unfold Constraint.unsatisfied
  rw [if_pos]
  rw [List.any_eq_true]
  exact ⟨x, hx, by simp [Dict.has, hm]⟩

theorem unsat_of_bound {h : Heap} {c : Constraint} {σ : Subst} (hb : ∀ x ∈ c.vars, σ.get? x ≠ none) :
    c.unsatisfied h σ = (do return !truthy (← c.evaluate h σ)) := by
  unfold Constraint.unsatisfied
  rw [if_neg]
  rw [List.any_eq_true]
  rintro ⟨x, hx, h⟩
  apply hb x hx
  simp only [Bool.not_eq_true'] at h
  exact (Dict.has_eq_false_iff _ _).1 h

theorem length_dedup_eq {α} [DecidableEq α] (l : List α) : (dedup l).length = l.length ↔ l.Nodup := by
  constructor
  · intro h
    have hs : List.Subperm (dedup l) l := (nodup_dedup l).subperm (fun x hx => (mem_dedup l x).1 hx)
    have hp : (dedup l).Perm l := hs.perm_of_length_le (by omega)
    exact hp.nodup_iff.1 (nodup_dedup l)
  · intro h
    have hp : (dedup l).Perm l := (List.perm_ext_iff_of_nodup (nodup_dedup l) h).2 (fun x => mem_dedup l x)
    exact hp.length_eq

theorem lookupAll_ok {σ : Subst} {l : List Name} {vs : List Int} :
    lookupAll σ l = .ok vs ↔ l.map σ.get? = vs.map some := by
  induction l generalizing vs with
  | nil => cases vs <;> simp [lookupAll]
  | cons x l ih =>
    simp only [lookupAll]
    cases hg : σ.get? x with
    | none => cases vs <;> simp [hg]
    | some v =>
      cases vs with
      | nil => simp [bind_eq_ok]
      | cons w vs =>
        simp only [bind_eq_ok, List.map_cons, hg, List.cons.injEq, Option.some.injEq, pure_res, Except.ok.injEq]
        constructor
        · rintro ⟨a, ha, rfl, rfl⟩; exact ⟨rfl, ih.1 ha⟩
        · rintro ⟨rfl, h⟩; exact ⟨vs, ih.2 h, rfl, rfl⟩

theorem lookupAll_error {σ : Subst} {l : List Name} : (∃ x ∈ l, σ.get? x = none) ↔ lookupAll σ l = .error .keyError := by
  induction l with
  | nil => simp [lookupAll]
  | cons x l ih =>
    simp only [lookupAll, List.mem_cons, exists_eq_or_imp]
    cases hg : σ.get? x with
    | none => simp [hg]
    | some v =>
      simp only [reduceCtorEq, false_or]
      rw [ih]
      constructor
      · intro h; rw [h]; rfl
      · intro h; cases hl : lookupAll σ l with
        | ok a => rw [hl] at h; simp at h
        | error e => rw [hl] at h; simpa using h

theorem lookupAll_total {σ : Subst} {l : List Name} (h : ∀ x ∈ l, σ.get? x ≠ none) : ∃ vs, lookupAll σ l = .ok vs := by
  induction l with
  | nil => exact ⟨[], rfl⟩
  | cons x l ih =>
    obtain ⟨vs, hvs⟩ := ih (fun y hy => h y (by simp [hy]))
    simp only [lookupAll]
    cases hg : σ.get? x with
    | none => exact absurd hg (h x (by simp))
    | some v => exact ⟨v :: vs, by simp [hvs]⟩

end Satisfy
