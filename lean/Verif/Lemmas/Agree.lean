import Verif.Session
import Verif.Lemmas.BoundExpr
import Verif.Props.Optimize
/-! Heaps that agree on some objects; what the steps of iterations do to them. -/

namespace Satisfy
open Props

/-- The heaps agree on the compiled functions `I` and the parameters `P`. -/
def Agree (I P : Nat → Prop) (A T : Heap) : Prop := (∀ i, I i → T.fns i = A.fns i) ∧ ∀ p, P p → T.params p = A.params p

theorem Agree.refl (I P : Nat → Prop) (A : Heap) : Agree I P A A := ⟨fun _ _ => rfl, fun _ _ => rfl⟩
theorem Agree.trans {I P : Nat → Prop} {A B C : Heap} (h : Agree I P A B) (h' : Agree I P B C) : Agree I P A C :=
  ⟨fun i hi => (h'.1 i hi).trans (h.1 i hi), fun i hi => (h'.2 i hi).trans (h.2 i hi)⟩

/-- The parameter objects that `optimize` made for an objective. -/
def ObjCon.own (k : ObjCon) : List Nat := k.notSet.params ++ k.bound.params

/-- What every constraint made by `optimize` is like. -/
structure ObjCon.Proper (k : ObjCon) : Prop where
  notSet : ∃ p x, k.notSet = .param p x
  bound : ∃ q y, k.bound = .param q y
  con : k.con.kind = .expr (boundExpr k.obj k.notSet k.bound)

theorem Fresh.proper {w w' : World} {k : ObjCon} (f : Fresh w w' k) : k.Proper := by
  obtain ⟨p, x, hp, _⟩ := f.notSet
  obtain ⟨q, y, hq, _⟩ := f.bound
  exact ⟨⟨p, x, hp⟩, ⟨q, y, hq⟩, f.con⟩

theorem proper_params {k : ObjCon} (h : k.Proper) : ∀ p ∈ k.con.kind.paramIds, p ∈ k.obj.expr.params ∨ p ∈ k.own := by
  obtain ⟨⟨p, x, hp⟩, ⟨q, y, hq⟩, hc⟩ := h
  intro i hi
  rw [hc] at hi
  simp only [CKind.paramIds, hp, hq, ObjCon.own, Expr.params] at hi ⊢
  rcases boundExpr_cases k.obj p q x y with ⟨z, hz, h⟩ | h
  · rw [h] at hi
    simp [Expr.params] at hi
    right; simp; omega
  · rw [h] at hi
    simp [Expr.params] at hi
    rcases hi with rfl | hi | rfl
    · right; simp
    · left; exact hi
    · right; simp

/-! ## Tightening the bounds -/

theorem compile_fns_eq (h : Heap) (c : Constraint) (e : Expr) (hc : c.kind = .expr e) : (c.compile h).fns c.id = some (asFunction h.params e) := by
  unfold Constraint.compile; rw [hc]; simp

theorem setBound_agree {I P : Nat → Prop} {A T : Heap} {k : ObjCon} (hk : k.Proper) (hI : I k.con.id) (hP : ∀ p ∈ k.con.kind.paramIds, P p)
    (h : Agree I P A T) (v : Int) : Agree I P (k.setBound v A) (k.setBound v T) := by
  obtain ⟨⟨p, x, hp⟩, ⟨q, y, hq⟩, hc⟩ := hk
  have hpar : ∀ i, P i → (k.setBound v T).params i = (k.setBound v A).params i := by
    intro i hi
    rw [setBound_params hp hq, setBound_params hp hq]
    simp only
    rw [h.2 i hi]
  refine ⟨fun i hi => ?_, hpar⟩
  by_cases hid : i = k.con.id
  · subst hid
    have hcomp : ∀ S : Heap, k.con.isCompiled ((S.assign k.notSet 0).assign k.bound v) = (S.fns k.con.id).isSome := by
      intro S; simp [Constraint.isCompiled, hc, assign_fns]
    have hpar' : ∀ i, P i → ((T.assign k.notSet 0).assign k.bound v).params i = ((A.assign k.notSet 0).assign k.bound v).params i := by
      intro i hi
      simp only [hp, hq, assign_params]
      rw [h.2 i hi]
    unfold ObjCon.setBound
    simp only [hcomp, h.1 _ hi]
    split
    · rw [compile_fns_eq _ _ _ hc, compile_fns_eq _ _ _ hc]
      congr 1
      refine asFunction_params (fun j hj => hpar' j (hP j ?_))
      rw [hc]; exact hj
    · simp only [assign_fns]; exact h.1 _ hi
  · rw [setBound_fns _ _ _ hid, setBound_fns _ _ _ hid, h.1 i hi]

/-- The bookkeeping of an iteration, in two heaps. -/
inductive Alike (I P : Nat → Prop) : Res Heap → Res Heap → Prop
  | ok {A T : Heap} : Agree I P A T → Alike I P (.ok A) (.ok T)
  | error (e : Err) : Alike I P (.error e) (.error e)

theorem onSolution_agree {I P : Nat → Prop} {ks : List ObjCon}
    (hk : ∀ k ∈ ks, k.Proper ∧ I k.con.id ∧ (∀ p ∈ k.con.kind.paramIds, P p) ∧ ∀ p ∈ k.obj.expr.params, P p) (σ : Subst) :
    ∀ {A T : Heap}, Agree I P A T → Alike I P (onSolution ks A σ) (onSolution ks T σ) := by
  induction ks with
  | nil => intro A T h; exact .ok h
  | cons k ks ih =>
    intro A T h
    obtain ⟨h1, h2, h3, h4⟩ := hk k (by simp)
    have he : k.obj.expr.eval T.params σ = k.obj.expr.eval A.params σ := eval_params (fun p hp => h.2 p (h4 p hp)) σ
    simp only [onSolution, ObjCon.addSolution, he]
    cases hv : k.obj.expr.eval A.params σ with
    | error e => exact .error e
    | ok v => exact ih (fun k hk' => hk k (by simp [hk'])) (setBound_agree h1 h2 h3 h v)

theorem onSolution_other {I P : Nat → Prop} {ks : List ObjCon} (hk : ∀ k ∈ ks, k.Proper ∧ ¬ I k.con.id ∧ ∀ p ∈ k.own, ¬ P p) {σ : Subst} :
    ∀ {A T : Heap}, onSolution ks A σ = .ok T → Agree I P A T := by
  induction ks with
  | nil => intro A T h; simp only [onSolution, Except.ok.injEq] at h; subst h; exact .refl _ _ _
  | cons k ks ih =>
    intro A T h
    simp only [onSolution, ObjCon.addSolution, bind_eq_ok, pure_res, Except.ok.injEq] at h
    obtain ⟨s1, ⟨v, _, rfl⟩, h2⟩ := h
    obtain ⟨⟨⟨p, x, hp⟩, ⟨q, y, hq⟩, _⟩, hI, hP⟩ := hk k (by simp)
    refine Agree.trans ⟨fun i hi => ?_, fun i hi => ?_⟩ (ih (fun k hk' => hk k (by simp [hk'])) h2)
    · exact setBound_fns _ _ _ (fun e => hI (e ▸ hi))
    · rw [setBound_params hp hq]
      simp only
      rw [if_neg, if_neg]
      · rintro rfl; exact hP i (by simp [ObjCon.own, hp, Expr.params]) hi
      · rintro rfl; exact hP i (by simp [ObjCon.own, hq, Expr.params]) hi

/-! ## Steps of iterations -/

theorem advance_agree {I P : Nat → Prop} {it : Iteration} {A T : Heap}
    (hk : ∀ k ∈ it.objs, k.Proper ∧ I k.con.id ∧ (∀ p ∈ k.con.kind.paramIds, P p) ∧ ∀ p ∈ k.obj.expr.params, P p)
    (hcand : candidates it.info T = candidates it.info A) (h : Agree I P A T) :
    (it.advance T).1 = (it.advance A).1 ∧ (it.advance T).2.2 = (it.advance A).2.2 ∧ Agree I P (it.advance A).2.1 (it.advance T).2.1 := by
  unfold Iteration.advance
  rw [hcand]
  cases hph : it.gen.phase with
  | running =>
    simp only
    cases hg : (it.gen.loop it.cfg (candidates it.info A)).phase with
    | suspended σ =>
      simp only
      have := onSolution_agree hk σ h
      generalize hA : onSolution it.objs A σ = rA at this
      generalize hT : onSolution it.objs T σ = rT at this
      cases this with
      | ok h' => exact ⟨rfl, rfl, h'⟩
      | error e => exact ⟨rfl, rfl, h⟩
    | running => exact ⟨rfl, rfl, h⟩
    | finished => exact ⟨rfl, rfl, h⟩
    | raised e => exact ⟨rfl, rfl, h⟩
  | suspended σ => exact ⟨rfl, rfl, h⟩
  | finished => exact ⟨rfl, rfl, h⟩
  | raised e => exact ⟨rfl, rfl, h⟩

/-- What a step does to the heap: nothing, or the bookkeeping for a solution. -/
theorem advance_heap (it : Iteration) (h : Heap) : (it.advance h).2.1 = h ∨ ∃ σ, onSolution it.objs h σ = .ok (it.advance h).2.1 := by
  unfold Iteration.advance
  cases hph : it.gen.phase with
  | running =>
    simp only
    cases hg : (it.gen.loop it.cfg (candidates it.info h)).phase with
    | suspended σ =>
      simp only
      cases hA : onSolution it.objs h σ with
      | ok h' => exact .inr ⟨σ, hA⟩
      | error e => exact .inl rfl
    | running => exact .inl rfl
    | finished => exact .inl rfl
    | raised e => exact .inl rfl
  | suspended σ => exact .inl rfl
  | finished => exact .inl rfl
  | raised e => exact .inl rfl

/-- What does not change. -/
theorem advance_fixed (it : Iteration) (h : Heap) : (it.advance h).1 = { it with gen := (it.advance h).1.gen } := by
  unfold Iteration.advance
  cases hph : it.gen.phase with
  | running =>
    simp only
    cases hg : (it.gen.loop it.cfg (candidates it.info h)).phase with
    | suspended σ => simp only; cases hA : onSolution it.objs h σ <;> rfl
    | running => rfl
    | finished => rfl
    | raised e => rfl
  | suspended σ => rfl
  | finished => rfl
  | raised e => rfl

theorem advance_counts (it : Iteration) (h : Heap) : (it.advance h).2.1.nparams = h.nparams ∧ (it.advance h).2.1.ncons = h.ncons := by
  rcases advance_heap it h with he | ⟨σ, he⟩
  · rw [he]; exact ⟨rfl, rfl⟩
  · exact onSolution_counts he

theorem advance_other {I P : Nat → Prop} {it : Iteration} {h : Heap} (hk : ∀ k ∈ it.objs, k.Proper ∧ ¬ I k.con.id ∧ ∀ p ∈ k.own, ¬ P p) :
    Agree I P h (it.advance h).2.1 := by
  rcases advance_heap it h with he | ⟨σ, he⟩
  · rw [he]; exact .refl _ _ _
  · exact onSolution_other hk he

/-- Without objectives a step changes no object, and is a step of `solve`. -/
theorem advance_plain {it : Iteration} (ho : it.objs = []) (h : Heap) :
    it.advance h =
      let g := (sysStep it.cfg (candidates it.info) passive it.gen h).1
      ({ it with gen := g }, h, match it.gen.phase with | .running => g.phase.output | _ => []) := by
  unfold Iteration.advance sysStep passive
  cases hph : it.gen.phase with
  | running =>
    simp only
    cases hg : (it.gen.loop it.cfg (candidates it.info h)).phase with
    | suspended σ => simp [ho, onSolution, hg, Phase.output]
    | running => simp [hg, Phase.output]
    | finished => simp [hg, Phase.output]
    | raised e => simp [hg, Phase.output]
  | suspended σ => simp
  | finished => simp
  | raised e => simp

/-! ## The constraints of the objectives -/

theorem makeConstraints_count (os : List Objective) : ∀ (w w' : World) (ks : List ObjCon), NameInv w.model.vars → makeConstraints os w = (w', .ok ks) →
    w'.heap.ncons = w.heap.ncons + ks.length := by
  induction os with
  | nil =>
    intro w w' ks _ h
    simp only [makeConstraints, pure, Api.pure, Prod.mk.injEq, Except.ok.injEq] at h
    obtain ⟨rfl, rfl⟩ := h
    rfl
  | cons o os ih =>
    intro w w' ks hi h
    obtain ⟨k, w1, hk, m1⟩ := makeConstraint_spec o w hi
    obtain ⟨ks', w2, hks, m2⟩ := makeConstraints_spec os w1 m1.inv
    simp only [makeConstraints, Api.bind_apply, hk, hks, pure, Api.pure, Prod.mk.injEq, Except.ok.injEq] at h
    obtain ⟨rfl, rfl⟩ := h
    rw [ih w1 w2 ks' m1.inv hks, m1.ncons, List.length_cons]
    omega

end Satisfy
