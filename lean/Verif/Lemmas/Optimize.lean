import Verif.Lemmas.Params
import Verif.Lemmas.Reuse
/-! The bookkeeping of `optimize`: new parameters and constraints, bounds. -/

namespace Satisfy

open Props

theorem addParameter_none (v : Int) (w : World) (hi : NameInv w.model.vars) :
    addParameter v none w =
        (⟨{ w.model with vars := w.model.vars ++ [("_p" ++ toString w.model.vars.length, ⟨none, some w.heap.nparams⟩)] },
          (w.heap.newParam v).2⟩, .ok (.param w.heap.nparams ("_p" ++ toString w.model.vars.length))) ∧
      NameInv (w.model.vars ++ [("_p" ++ toString w.model.vars.length, ⟨none, some w.heap.nparams⟩)]) := by
  rcases addParam_effect v none w hi with ⟨e, he⟩ | ⟨nm, he, hinv, hnm⟩
  · simp [addParameter, getName, Api.bind_apply, Api.model, pure, Api.pure] at he
  · have := hnm rfl; subst this; exact ⟨he, hinv⟩

/-- The effect of making one objective constraint. -/
structure Made1 (w : World) (o : Objective) (k : ObjCon) (w' : World) : Prop where
  vars : ∃ x y, w'.model.vars = w.model.vars ++ [(x, ⟨none, some w.heap.nparams⟩), (y, ⟨none, some (w.heap.nparams + 1)⟩)] ∧
    k.notSet = .param w.heap.nparams x ∧ k.bound = .param (w.heap.nparams + 1) y
  inv : NameInv w'.model.vars
  cons : w'.model.constraints = w.model.constraints
  solvable : w'.model.solvable = w.model.solvable
  params : w'.heap.params = fun i => if i = w.heap.nparams + 1 then 0 else if i = w.heap.nparams then 1 else w.heap.params i
  fns : w'.heap.fns = fun i => if i = w.heap.ncons then none else w.heap.fns i
  nparams : w'.heap.nparams = w.heap.nparams + 2
  ncons : w'.heap.ncons = w.heap.ncons + 1
  obj : k.obj = o
  con : k.con = ⟨w.heap.ncons, .expr (boundExpr o k.notSet k.bound)⟩

theorem makeConstraint_spec (o : Objective) (w : World) (hi : NameInv w.model.vars) :
    ∃ k w', makeConstraint o w = (w', .ok k) ∧ Made1 w o k w' := by
  obtain ⟨h1, i1⟩ := addParameter_none 1 w hi
  have i1' : NameInv (addParameter 1 none w).1.model.vars := by rw [h1]; exact i1
  obtain ⟨h2, i2⟩ := addParameter_none 0 (addParameter 1 none w).1 i1'
  simp only [makeConstraint, Api.bind_apply]
  cases ha : addParameter 1 none w with
  | mk w1 r1 =>
    rw [h1] at ha
    cases ha
    simp only
    rw [h1] at h2 i2
    simp only at h2 i2
    rw [h2]
    simp only [newConstraint, pure, Api.pure]
    refine ⟨_, _, rfl, ⟨⟨_, _, ?_, rfl, rfl⟩, ?_, rfl, rfl, ?_, rfl, rfl, rfl, rfl, rfl⟩⟩
    · simp [Heap.newParam]
    · simpa using i2
    · rfl

/-- The bookkeeping objects of an objective are new in `w`, and set up for `w'`. -/
structure Fresh (w w' : World) (k : ObjCon) : Prop where
  notSet : ∃ p x, k.notSet = .param p x ∧ w.heap.nparams ≤ p ∧ p < w'.heap.nparams ∧ w'.heap.params p = 1
  bound : ∃ q y, k.bound = .param q y ∧ w.heap.nparams ≤ q ∧ q < w'.heap.nparams ∧ w'.heap.params q = 0
  ne : ∀ p x q y, k.notSet = .param p x → k.bound = .param q y → p ≠ q
  con : k.con.kind = .expr (boundExpr k.obj k.notSet k.bound)
  idLo : w.heap.ncons ≤ k.con.id
  idHi : k.con.id < w'.heap.ncons
  fns : w'.heap.fns k.con.id = none

/-- The effect of making the objective constraints. -/
structure Made (w : World) (os : List Objective) (ks : List ObjCon) (w' : World) : Prop where
  vars : ∃ extra, w'.model.vars = w.model.vars ++ extra ∧ (∀ p ∈ extra, p.2.domain = none) ∧
    ∀ p ∈ extra, p.1 ∉ w.model.vars.keys
  inv : NameInv w'.model.vars
  cons : w'.model.constraints = w.model.constraints
  solvable : w'.model.solvable = w.model.solvable
  params : ∀ i < w.heap.nparams, w'.heap.params i = w.heap.params i
  fns : ∀ i < w.heap.ncons, w'.heap.fns i = w.heap.fns i
  nparams : w.heap.nparams ≤ w'.heap.nparams
  ncons : w.heap.ncons ≤ w'.heap.ncons
  objs : ks.map (·.obj) = os
  fresh : ∀ k ∈ ks, Fresh w w' k
  ids : (ks.map (·.con.id)).Nodup

theorem makeConstraints_spec (os : List Objective) : ∀ (w : World), NameInv w.model.vars →
    ∃ ks w', makeConstraints os w = (w', .ok ks) ∧ Made w os ks w' := by
  induction os with
  | nil =>
    intro w hi
    exact ⟨[], w, rfl, ⟨⟨[], by simp, by simp, by simp⟩, hi, rfl, rfl, fun _ _ => rfl, fun _ _ => rfl, Nat.le_refl _, Nat.le_refl _,
      rfl, by simp, by simp⟩⟩
  | cons o os ih =>
    intro w hi
    obtain ⟨k, w1, hk, m1⟩ := makeConstraint_spec o w hi
    obtain ⟨ks, w2, hks, m2⟩ := ih w1 m1.inv
    refine ⟨k :: ks, w2, by simp [makeConstraints, Api.bind_apply, hk, hks, pure, Api.pure], ?_⟩
    obtain ⟨x, y, hv1, hn, hb⟩ := m1.vars
    obtain ⟨extra, hv2, hd2, hf2⟩ := m2.vars
    have e1 := m1.nparams
    have e2 := m1.ncons
    have e3 := m2.nparams
    have e4 := m2.ncons
    refine ⟨⟨_, by rw [hv2, hv1, List.append_assoc], ?_, ?_⟩, m2.inv, by rw [m2.cons, m1.cons], by rw [m2.solvable, m1.solvable],
      ?_, ?_, by omega, by omega, by simp [m1.obj, m2.objs], ?_, ?_⟩
    · intro p hp
      rcases List.mem_append.1 hp with hp | hp
      · simp at hp; rcases hp with rfl | rfl <;> rfl
      · exact hd2 p hp
    · have hnd := m2.inv.1
      rw [hv2, hv1, List.append_assoc, Dict.keys, List.map_append] at hnd
      have := (List.nodup_append.1 hnd).2.2
      intro p hp hm
      exact this p.1 hm p.1 (List.mem_map.2 ⟨p, hp, rfl⟩) rfl
    · intro i hlt
      rw [m2.params i (by omega), m1.params]
      simp only
      rw [if_neg (by omega), if_neg (by omega)]
    · intro i hlt
      rw [m2.fns i (by omega), m1.fns]
      simp only
      rw [if_neg (by omega)]
    · intro k' hk'
      rcases List.mem_cons.1 hk' with rfl | hk'
      · refine ⟨⟨_, _, hn, Nat.le_refl _, by omega, ?_⟩, ⟨_, _, hb, by omega, by omega, ?_⟩, ?_, ?_, ?_, ?_, ?_⟩
        · rw [m2.params _ (by omega), m1.params]; simp
        · rw [m2.params _ (by omega), m1.params]; simp
        · intro p x' q y' h1 h2
          rw [hn] at h1; rw [hb] at h2
          cases h1; cases h2; omega
        · rw [m1.con, m1.obj]
        · rw [m1.con]
        · rw [m1.con]; show w.heap.ncons < _; omega
        · rw [m1.con]; show w2.heap.fns w.heap.ncons = none
          rw [m2.fns _ (by omega), m1.fns]; simp
      · have f := m2.fresh k' hk'
        obtain ⟨p, px, f1, f2, f3, f4⟩ := f.notSet
        obtain ⟨q, qx, g1, g2, g3, g4⟩ := f.bound
        have := f.idLo
        exact ⟨⟨p, px, f1, by omega, f3, f4⟩, ⟨q, qx, g1, by omega, g3, g4⟩, f.ne, f.con, by omega, f.idHi, f.fns⟩
    · simp only [List.map_cons, List.nodup_cons]
      refine ⟨?_, m2.ids⟩
      intro hm
      obtain ⟨k', hk', he⟩ := List.mem_map.1 hm
      have := (m2.fresh k' hk').idLo
      rw [m1.con] at he
      simp only at he
      omega

theorem optimizeRun_eq {a : SolveArgs} {os : List Objective} {w w' : World} {ks : List ObjCon}
    (h : makeConstraints os w = (w', .ok ks)) (n : Nat) :
    optimizeRun a os n w =
      ((solveRun (a.withObjectives ks) w'.model (onSolution ks) n w'.heap).1,
       (solveRun (a.withObjectives ks) w'.model (onSolution ks) n w'.heap).2.1,
       { w' with heap := (solveRun (a.withObjectives ks) w'.model (onSolution ks) n w'.heap).2.2 }) := by
  unfold optimizeRun; rw [h]

/-! ## The model afterwards -/

theorem made_domain {w w' : World} {os ks} (hm : Made w os ks w') (x : Name) : w'.model.domain? x = w.model.domain? x := by
  obtain ⟨extra, hv, hd, _⟩ := hm.vars
  simp only [Model.domain?, hv, Dict.get?_append]
  cases h : w.model.vars.get? x with
  | some i => simp
  | none =>
    simp only [Option.none_or, Option.bind_none]
    cases h' : Dict.get? extra x with
    | none => rfl
    | some i =>
      have := hd _ (Dict.mem_of_get? h')
      simpa using this

theorem made_pureVars {w w' : World} {os ks} (hm : Made w os ks w') : w'.model.pureVars = w.model.pureVars := by
  obtain ⟨extra, hv, hd, _⟩ := hm.vars
  simp only [Model.pureVars, hv, List.filterMap_append]
  have : List.filterMap (fun p : Name × VarInfo => Option.map (fun d => (p.1, d)) p.2.domain) extra = [] := by
    rw [List.filterMap_eq_nil_iff]
    intro p hp; rw [hd p hp]; rfl
  rw [this, List.append_nil]

theorem made_assignment {w w' : World} {os ks} (hm : Made w os ks w') (τ : Subst) : Assignment w'.model τ ↔ Assignment w.model τ := by
  constructor
  · rintro ⟨h1, h2, h3⟩; simp only [made_domain hm] at h2 h3; exact ⟨h1, h2, h3⟩
  · rintro ⟨h1, h2, h3⟩; refine ⟨h1, ?_, ?_⟩ <;> simp only [made_domain hm] <;> assumption

theorem made_over {w w' : World} {os ks} (hm : Made w os ks w') (c : Constraint) : Over w'.model c ↔ Over w.model c := by
  unfold Over; simp only [made_domain hm]

/-! ## What the bounds touch -/

/-- Heaps that agree on the objects that existed in `h`. -/
def Steady (h s s' : Heap) : Prop :=
  (∀ i < h.nparams, s.params i = s'.params i) ∧ ∀ i < h.ncons, s.fns i = s'.fns i

theorem Steady.refl (h s : Heap) : Steady h s s := ⟨fun _ _ => rfl, fun _ _ => rfl⟩
theorem Steady.trans {h s s' s'' : Heap} (h1 : Steady h s s') (h2 : Steady h s' s'') : Steady h s s'' :=
  ⟨fun i hi => (h1.1 i hi).trans (h2.1 i hi), fun i hi => (h1.2 i hi).trans (h2.2 i hi)⟩
theorem Steady.symm {h s s' : Heap} (h1 : Steady h s s') : Steady h s' s :=
  ⟨fun i hi => (h1.1 i hi).symm, fun i hi => (h1.2 i hi).symm⟩

theorem steady_evaluate {h s s' : Heap} (hs : Steady h s s') {c : Constraint} (hc : Old h c) (σ : Subst) :
    c.evaluate s σ = c.evaluate s' σ :=
  evaluate_params (hs.2 _ hc.1) (fun e he i hi => hs.1 i (hc.2 e he i hi)) σ

theorem compile_fns_ne (h : Heap) (c : Constraint) {i : Nat} (hi : i ≠ c.id) : (c.compile h).fns i = h.fns i := by
  unfold Constraint.compile
  split
  · simp [hi]
  · rfl

theorem assign_params (h : Heap) (p : Nat) (x : Name) (v : Int) :
    (h.assign (.param p x) v).params = fun i => if i = p then v else h.params i := rfl
theorem assign_fns (h : Heap) (e : Expr) (v : Int) : (h.assign e v).fns = h.fns := by cases e <;> rfl

theorem setBound_params {k : ObjCon} {p q : Nat} {x y : Name} (hp : k.notSet = .param p x) (hq : k.bound = .param q y) (v : Int) (s : Heap) :
    (k.setBound v s).params = fun i => if i = q then v else if i = p then 0 else s.params i := by
  unfold ObjCon.setBound
  simp only [hp, hq]
  split
  · rw [compile_params]; rfl
  · rfl

theorem setBound_fns (k : ObjCon) (v : Int) (s : Heap) {i : Nat} (hi : i ≠ k.con.id) : (k.setBound v s).fns i = s.fns i := by
  unfold ObjCon.setBound
  simp only
  split
  · rw [compile_fns_ne _ _ hi]; simp only [assign_fns]
  · simp only [assign_fns]

theorem setBound_steady {w w' : World} {k : ObjCon} (f : Fresh w w' k) (v : Int) (s : Heap) : Steady w.heap s (k.setBound v s) := by
  obtain ⟨p, x, hp, h1, _, _⟩ := f.notSet
  obtain ⟨q, y, hq, h2, _, _⟩ := f.bound
  refine ⟨fun i hi => ?_, fun i hi => ?_⟩
  · rw [setBound_params hp hq]
    simp only
    rw [if_neg (by omega), if_neg (by omega)]
  · rw [setBound_fns]
    have := f.idLo
    omega

theorem onSolution_steady {w w' : World} {ks : List ObjCon} (f : ∀ k ∈ ks, Fresh w w' k) :
    ∀ {s s' : Heap} {σ : Subst}, onSolution ks s σ = .ok s' → Steady w.heap s s' := by
  induction ks with
  | nil => intro s s' σ h; simp only [onSolution, Except.ok.injEq] at h; subst h; exact .refl _ _
  | cons k ks ih =>
    intro s s' σ h
    simp only [onSolution, ObjCon.addSolution, bind_eq_ok, pure_res, Except.ok.injEq] at h
    obtain ⟨s1, ⟨v, _, rfl⟩, h2⟩ := h
    exact (setBound_steady (f k (by simp)) v s).trans (ih (fun k hk => f k (by simp [hk])) h2)

theorem sysRun_inv {S : Type} {Inv : S → Prop} (cfg : RunCfg) (cand : S → Name → Subst → Res (List Int)) {act : S → Subst → Res S}
    (hact : ∀ s σ s', Inv s → act s σ = .ok s' → Inv s') (n : Nat) (g : Gen) (s : S) (hs : Inv s) :
    Inv (sysRun cfg cand act n g s).2.2 := by
  induction n generalizing g s with
  | zero => exact hs
  | succ n ih =>
    rw [sysRun_succ]
    refine ih _ _ ?_
    unfold sysStep
    split
    · exact hs
    · split
      · exact hact _ _ _ hs (by assumption)
      · exact hs
    · exact hs

end Satisfy
