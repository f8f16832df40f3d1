import Verif.Lemmas.Solve
import Verif.Props.Model
/-! Models built through the API meet the assumptions of the solver theorems. -/

namespace Satisfy

open Props

/-- The API only builds well-formed models. -/
theorem model_wf (h : Heap) (cs : List Call) : (runCalls cs ⟨.empty, h⟩).model.WF := by
  refine ⟨(runCalls_inv cs ⟨.empty, h⟩ emptyInv).1, ?_⟩
  suffices ∀ cs (w : World), NameInv w.model.vars → (∀ x d, w.model.domain? x = some d → d.Nodup) →
      ∀ x d, (runCalls cs w).model.domain? x = some d → d.Nodup by
    exact this cs ⟨.empty, h⟩ emptyInv (by intro x d hx; simp [Model.domain?, Model.empty] at hx)
  intro cs
  induction cs with
  | nil => intro w _ hw; exact hw
  | cons c cs ih =>
    intro w hi hw
    obtain ⟨hi', hc⟩ := C11_call c w hi
    refine ih _ hi' ?_
    intro x d hx
    rcases hc with he | ⟨y, i, _, hd, he⟩
    · simp only [Model.domain?, he] at hx hw; exact hw x d hx
    · simp only [Model.domain?, he, Dict.get?_append] at hx
      cases hg : w.model.vars.get? x with
      | some j => rw [hg] at hx; exact hw x d (by simpa [Model.domain?, hg] using hx)
      | none =>
        rw [hg] at hx
        simp only [Dict.get?, Option.none_or] at hx
        split at hx
        · exact hd d (by simpa using hx)
        · simp at hx

/-- A call that does not hand in a ready-made constraint object. -/
def Call.noObject : Call → Prop
  | .addCon (.constraint _) => False
  | _ => True

/-- Stored constraints are different objects, older than any new one, and not compiled. -/
structure IdInv (w : World) : Prop where
  lt : ∀ c ∈ w.model.constraints, c.id < w.heap.ncons
  same : SameIds w.model.constraints
  fns : ∀ c ∈ w.model.constraints, w.heap.fns c.id = none

theorem addCon_idInv (w : World) (k : CKind) (hw : IdInv w) :
    IdInv (addConstraint (.constraint ⟨w.heap.ncons, k⟩) { w with heap := (w.heap.newConstraint k).2 }).1 := by
  have h0 : IdInv { w with heap := (w.heap.newConstraint k).2 } := by
    refine ⟨fun c hc => Nat.lt_succ_of_lt (hw.lt c hc), hw.same, fun c hc => ?_⟩
    have := hw.lt c hc
    simp only [Heap.newConstraint]
    rw [if_neg (by omega)]
    exact hw.fns c hc
  have h1 : ∀ b, IdInv { w with heap := (w.heap.newConstraint k).2, model := { w.model with
      solvable := b, constraints := w.model.constraints ++ [⟨w.heap.ncons, k⟩] } } := by
    intro b
    refine ⟨fun c hc => ?_, fun c hc c' hc' hid => ?_, fun c hc => ?_⟩
    · rcases List.mem_append.1 hc with hc | hc
      · exact h0.lt c hc
      · simp at hc; subst hc; simp [Heap.newConstraint]
    · rcases List.mem_append.1 hc with hc | hc <;> rcases List.mem_append.1 hc' with hc' | hc'
      · exact hw.same c hc c' hc' hid
      · simp at hc'; subst hc'; have := hw.lt c hc; simp only at hid; omega
      · simp at hc; subst hc; have := hw.lt c' hc'; simp only at hid; omega
      · simp at hc hc'; rw [hc, hc']
    · rcases List.mem_append.1 hc with hc | hc
      · exact h0.fns c hc
      · simp at hc; subst hc; simp [Heap.newConstraint]
  rw [addCon_effect]
  split
  · split
    · exact h0
    · split
      · exact h1 false
      · exact h0
  · split
    · exact h0
    · exact h1 w.model.solvable

theorem call_idInv (c : Call) (w : World) (hi : NameInv w.model.vars) (hn : c.noObject) (hw : IdInv w) : IdInv (c.run w).1 := by
  have hmap : ∀ {α} (f : Api α) (w : World), ((do let _ ← f : Api Unit) w).1 = (f w).1 := by
    intro α f w
    simp only [Api.bind_apply]
    cases hf : f w with
    | mk w' r => cases r <;> simp [pure, Api.pure]
  have int : ∀ d n, IdInv (addIntVariable d n w).1 := by
    intro d n
    rcases addInt_effect d n w hi with ⟨e', he⟩ | ⟨nm, he, _⟩ <;> rw [he]
    · exact hw
    · exact ⟨hw.lt, hw.same, hw.fns⟩
  cases c with
  | addInt d n => simp only [Call.run]; rw [hmap]; exact int d n
  | addBool n => simp only [Call.run]; rw [hmap]; exact int [0, 1] n
  | addParam v n =>
    simp only [Call.run]; rw [hmap]
    rcases addParam_effect v n w hi with ⟨e', he⟩ | ⟨nm, he, _⟩ <;> rw [he]
    · exact hw
    · exact ⟨hw.lt, hw.same, hw.fns⟩
  | addCon a =>
    simp only [Call.run]
    cases a with
    | bool b => rw [addCon_bool]; exact addCon_idInv w _ hw
    | expr b => rw [addCon_expr]; exact addCon_idInv w _ hw
    | constraint k => exact absurd hn (by simp [Call.noObject])
    | other => exact hw
  | addAllDiff ns => simp only [Call.run]; rw [addAllDiff_eq]; exact addCon_idInv w _ hw
  | setSolvable b => exact hw
  | setParam i v => exact ⟨hw.lt, hw.same, hw.fns⟩

theorem model_ids (h : Heap) (cs : List Call) (hn : ∀ c ∈ cs, c.noObject) : IdInv (runCalls cs ⟨.empty, h⟩) := by
  suffices ∀ cs (w : World), NameInv w.model.vars → (∀ c ∈ cs, c.noObject) → IdInv w → IdInv (runCalls cs w) by
    exact this cs ⟨.empty, h⟩ emptyInv hn ⟨by simp [Model.empty], by intro c hc; simp [Model.empty] at hc, by simp [Model.empty]⟩
  intro cs
  induction cs with
  | nil => intro w _ _ hw; exact hw
  | cons c cs ih =>
    intro w hi hn hw
    exact ih _ (C11_call c w hi).1 (fun c' hc' => hn c' (by simp [hc'])) (call_idInv c w hi (hn c (by simp)) hw)

end Satisfy
