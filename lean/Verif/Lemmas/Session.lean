import Verif.Lemmas.Agree
/-! The objects of a program, and an iteration in progress next to others. -/

namespace Satisfy.Props
open Satisfy

/-! ## The objects of a program -/

/-- The object exists, the program can reach it, and it is this one. -/
def ObjectOf (objs : List (Option CKind)) (c : Constraint) : Prop := objs[c.id]? = some (some c.kind)

/-- What holds of all objects at all times. -/
structure Orderly (s : Session) : Prop where
  ncons : s.heap.ncons = s.objs.length
  params : ∀ k, some k ∈ s.objs → ∀ i ∈ k.paramIds, i < s.heap.nparams
  models : ∀ m, ∀ c ∈ (s.models m).constraints, ObjectOf s.objs c
  names : ∀ m, NameInv (s.models m).vars
  fresh : ∀ i, s.its i = none → s.outs i = []
  its : ∀ j it, s.its j = some it → ∀ k ∈ it.objs, k.Proper ∧ s.objs[k.con.id]? = some none ∧ ∀ p ∈ k.own, p < s.heap.nparams

theorem ObjectOf.lt {objs : List (Option CKind)} {c : Constraint} (h : ObjectOf objs c) : c.id < objs.length :=
  (List.getElem?_eq_some_iff.1 h).1

theorem ObjectOf.mem {objs : List (Option CKind)} {c : Constraint} (h : ObjectOf objs c) : some c.kind ∈ objs := List.mem_of_getElem? h

theorem ObjectOf.append {objs : List (Option CKind)} {c : Constraint} (h : ObjectOf objs c) (l : List (Option CKind)) : ObjectOf (objs ++ l) c := by
  unfold ObjectOf
  rw [List.getElem?_append_left h.lt]; exact h

theorem objectAt_iff {objs : List (Option CKind)} {i : Nat} {c : Constraint} : objectAt objs i = some c ↔ c.id = i ∧ ObjectOf objs c := by
  unfold objectAt ObjectOf
  cases ho : objs[i]? with
  | none =>
    simp
    rintro rfl; rw [ho]; simp
  | some k =>
    cases k with
    | none =>
      simp
      rintro rfl; rw [ho]; simp
    | some k =>
      simp
      constructor
      · rintro rfl; exact ⟨rfl, ho⟩
      · rintro ⟨rfl, h⟩
        rw [ho] at h
        simp at h
        rw [h]

theorem objectAt_known {objs : List (Option CKind)} {i : Nat} {c : Constraint} (h : objectAt objs i = some c) : ObjectOf objs c := (objectAt_iff.1 h).2

theorem ObjectOf.same {objs : List (Option CKind)} {c c' : Constraint} (h : ObjectOf objs c) (h' : ObjectOf objs c') (he : c.id = c'.id) : c = c' := by
  unfold ObjectOf at h h'
  rw [he, h'] at h
  cases c; cases c'; simp only [Option.some.injEq] at h he ⊢
  simp [he, h]

theorem orderly_init : Orderly .init :=
  ⟨rfl, by simp [Session.init], by simp [Session.init, Model.empty], fun _ => (by simp [Session.init, Model.empty, NameInv, Dict.keys]), fun _ _ => rfl,
    by simp [Session.init]⟩

/-- Some steps keep what is known about iterations. -/
theorem Orderly.keepIts {s : Session} (h : Orderly s) {l : List (Option CKind)} {n : Nat} (hn : s.heap.nparams ≤ n) :
    ∀ j it, s.its j = some it → ∀ k ∈ it.objs, k.Proper ∧ (s.objs ++ l)[k.con.id]? = some none ∧ ∀ p ∈ k.own, p < n := by
  intro j it hj k hk
  obtain ⟨h1, h2, h3⟩ := h.its j it hj k hk
  refine ⟨h1, ?_, fun p hp => Nat.lt_of_lt_of_le (h3 p hp) hn⟩
  rw [List.getElem?_append_left (List.getElem?_eq_some_iff.1 h2).1]
  exact h2

/-- One step of the program that is not an iteration and assigns to no parameter. -/
structure Quiet (s t : Session) : Prop where
  orderly : Orderly t
  objs : ∃ l, t.objs = s.objs ++ l
  fns : ∀ i < s.objs.length, t.heap.fns i = s.heap.fns i
  nparams : s.heap.nparams ≤ t.heap.nparams
  params : ∀ i < s.heap.nparams, t.heap.params i = s.heap.params i
  its : t.its = s.its
  outs : t.outs = s.outs

theorem Quiet.trans {s t u : Session} (h : Quiet s t) (h' : Quiet t u) : Quiet s u := by
  obtain ⟨l, hl⟩ := h.objs
  obtain ⟨l', hl'⟩ := h'.objs
  refine ⟨h'.orderly, ⟨l ++ l', by rw [hl', hl, List.append_assoc]⟩, fun i hi => ?_, h.nparams.trans h'.nparams, fun i hi => ?_,
    h'.its.trans h.its, h'.outs.trans h.outs⟩
  · rw [h'.fns i (by rw [hl, List.length_append]; omega), h.fns i hi]
  · rw [h'.params i (Nat.lt_of_lt_of_le hi h.nparams), h.params i hi]

theorem Quiet.refl {s : Session} (h : Orderly s) : Quiet s s := ⟨h, ⟨[], by simp⟩, fun _ _ => rfl, Nat.le_refl _, fun _ _ => rfl, rfl, rfl⟩

theorem quiet_create {s : Session} (h : Orderly s) {k : CKind} (hk : k.paramIds.all (· < s.heap.nparams) = true) : Quiet s (s.create k) := by
  refine ⟨⟨?_, ?_, ?_, h.names, h.fresh, h.keepIts (Nat.le_refl _)⟩, ⟨[some k], rfl⟩, ?_, Nat.le_refl _, fun _ _ => rfl, rfl, rfl⟩
  · simp [Session.create, Heap.newConstraint, h.ncons]
  · intro k' hk' i hi
    simp only [Session.create, List.mem_append, List.mem_singleton, Option.some.injEq] at hk'
    rcases hk' with hk' | rfl
    · exact h.params k' hk' i hi
    · have := List.all_eq_true.1 hk i hi
      exact of_decide_eq_true this
  · intro m c hc
    exact (h.models m c hc).append _
  · intro i hi
    have := h.ncons
    simp only [Session.create, Heap.newConstraint]
    rw [if_neg (by omega)]

theorem quiet_addCon {s : Session} (h : Orderly s) (m : Nat) {c : Constraint} (hc : ObjectOf s.objs c) :
    Quiet s (s.api m (addConstraint (.constraint c))) := by
  have key : ∀ w : World, w.heap = s.heap → w.model.vars = (s.models m).vars →
      (w.model.constraints = (s.models m).constraints ∨ w.model.constraints = (s.models m).constraints ++ [c]) →
      Quiet s { s with models := fun j => if j = m then w.model else s.models j, heap := w.heap } := by
    intro w h1 h2 h3
    refine ⟨⟨by rw [← h.ncons, ← h1], by simpa [h1] using h.params, ?_, ?_, h.fresh, by simpa [h1] using h.its⟩, ⟨[], by simp⟩,
      fun _ _ => by simp [h1], by simp [h1], fun _ _ => by simp [h1], rfl, rfl⟩
    · intro j d hd
      simp only at hd ⊢
      split at hd
      · rcases h3 with h3 | h3 <;> rw [h3] at hd
        · exact h.models m d hd
        · rcases List.mem_append.1 hd with hd | hd
          · exact h.models m d hd
          · simp at hd; subst hd; exact hc
      · exact h.models j d hd
    · intro j
      simp only
      split
      · rw [h2]; exact h.names m
      · exact h.names j
  unfold Session.api
  apply key
  all_goals rw [addCon_effect]
  all_goals split
  all_goals (try split)
  all_goals (try split)
  all_goals simp

theorem quiet_step (calls : Nat → SolveCall) {s : Session} (h : Orderly s) (op : Op) (h1 : ∀ i v, op ≠ .setParam i v) (h2 : ∀ i, op ≠ .next i) :
    Quiet s (s.step calls op) := by
  cases op with
  | addInt m d n =>
    simp only [Session.step, Session.api]
    rcases addInt_effect d n ⟨s.models m, s.heap⟩ (h.names m) with ⟨e, he⟩ | ⟨nm, he, _, hn, _⟩ <;> rw [he]
    · have : (fun j => if j = m then s.models m else s.models j) = s.models := by funext j; split <;> simp_all
      simp only [this]
      exact .refl h
    · refine ⟨⟨h.ncons, h.params, ?_, ?_, h.fresh, h.its⟩, ⟨[], by simp⟩, fun _ _ => rfl, Nat.le_refl _, fun _ _ => rfl, rfl, rfl⟩
      · intro j c hc
        simp only at hc
        split at hc
        · exact h.models m c hc
        · exact h.models j c hc
      · intro j
        simp only
        split
        · exact hn
        · exact h.names j
  | addParam m v n =>
    simp only [Session.step, Session.api]
    rcases addParam_effect v n ⟨s.models m, s.heap⟩ (h.names m) with ⟨e, he⟩ | ⟨nm, he, hn, _⟩ <;> rw [he]
    · have : (fun j => if j = m then s.models m else s.models j) = s.models := by funext j; split <;> simp_all
      simp only [this]
      exact .refl h
    · refine ⟨⟨h.ncons, ?_, ?_, ?_, h.fresh, ?_⟩, ⟨[], by simp⟩, fun _ _ => rfl, Nat.le_succ _, ?_, rfl, rfl⟩
      · intro k hk i hi
        exact Nat.lt_succ_of_lt (h.params k hk i hi)
      · intro j c hc
        simp only at hc
        split at hc
        · exact h.models m c hc
        · exact h.models j c hc
      · intro j
        simp only
        split
        · exact hn
        · exact h.names j
      · have := h.keepIts (l := []) (Nat.le_succ s.heap.nparams)
        rw [List.append_nil] at this
        exact this
      · intro i hi
        simp only [Heap.newParam, Heap.setParam]
        rw [if_neg (by omega)]
  | addCon m k =>
    simp only [Session.step]
    split
    · rename_i hk
      have hq := quiet_create h hk
      refine hq.trans (quiet_addCon hq.orderly m ?_)
      simp [ObjectOf, Session.create, h.ncons]
    · exact .refl h
  | newCon k =>
    simp only [Session.step]
    split
    · rename_i hk; exact quiet_create h hk
    · exact .refl h
  | addObject m i =>
    simp only [Session.step]
    split
    · rename_i c hc; exact quiet_addCon h m (objectAt_known hc)
    · exact .refl h
  | setParam i v => exact absurd rfl (h1 i v)
  | config j t => exact ⟨⟨h.ncons, h.params, h.models, h.names, h.fresh, h.its⟩, ⟨[], by simp [Session.step]⟩, fun _ _ => rfl, Nat.le_refl _, fun _ _ => rfl, rfl, rfl⟩
  | next i => exact absurd rfl (h2 i)

/-! ## Iterations -/

theorem effective_known {calls : Nat → SolveCall} {s : Session} (ht : Orderly s) (i : Nat) {c : Constraint}
    (hc : c ∈ (s.models (calls i).model).constraints ++ ((calls i).effective (s.solvers (calls i).solver) s.objs).adds) : ObjectOf s.objs c := by
  rcases List.mem_append.1 hc with hc | hc
  · exact ht.models _ c hc
  · simp only [SolveCall.effective, List.mem_filterMap] at hc
    obtain ⟨k, _, hk⟩ := hc
    exact objectAt_known hk

/-- Iteration `i` goes on. -/
theorem step_go {calls : Nat → SolveCall} {s : Session} {i : Nat} {it : Iteration} (hi : s.its i = some it) :
    s.step calls (.next i) = { s with
        heap := (it.advance s.heap).2.1
        its := fun j => if j = i then some (it.advance s.heap).1 else s.its j
        outs := fun j => if j = i then s.outs j ++ (it.advance s.heap).2.2 else s.outs j } := by
  simp only [Session.step, hi]

/-- The start of an iteration: the world and the constraints it makes for its objectives, the start of `solve` in this world. -/
structure Started (calls : Nat → SolveCall) (s : Session) (i : Nat) (w : World) (ks : List ObjCon) : Prop where
  make : makeConstraints (calls i).objectives ⟨s.models (calls i).model, s.heap⟩ = (w, .ok ks)
  made : Made ⟨s.models (calls i).model, s.heap⟩ (calls i).objectives ks w
  count : w.heap.ncons = s.heap.ncons + ks.length
  eq : s.start calls i = { s with
      models := fun j => if j = (calls i).model then w.model else s.models j
      heap := (startSolve (((calls i).effective (s.solvers (calls i).solver) s.objs).withObjectives ks) w.model w.heap).1
      objs := s.objs ++ ks.map (fun _ => none)
      its := fun j => if j = i then some ⟨((calls i).effective (s.solvers (calls i).solver) s.objs).cfg,
          (startSolve (((calls i).effective (s.solvers (calls i).solver) s.objs).withObjectives ks) w.model w.heap).2.1, ks,
          (startSolve (((calls i).effective (s.solvers (calls i).solver) s.objs).withObjectives ks) w.model w.heap).2.2⟩ else s.its j }
  heap : ∃ pre post, (s.models (calls i).model).constraints ++ ((calls i).effective (s.solvers (calls i).solver) s.objs).adds ++ ks.map (·.con) = pre ++ post ∧
    (s.start calls i).heap = compileAll (s.solvers (calls i).solver).compile pre w.heap

theorem started (calls : Nat → SolveCall) {s : Session} (h : Orderly s) (i : Nat) : ∃ w ks, Started calls s i w ks := by
  obtain ⟨ks, w, hmk, hm⟩ := makeConstraints_spec (calls i).objectives ⟨s.models (calls i).model, s.heap⟩ (h.names _)
  refine ⟨w, ks, hmk, hm, makeConstraints_count _ _ _ _ (h.names _) hmk, by unfold Session.start; simp only [hmk], ?_⟩
  obtain ⟨pre, post, hpre, hh⟩ := startSolve_heap (((calls i).effective (s.solvers (calls i).solver) s.objs).withObjectives ks) w.model w.heap
  refine ⟨pre, post, ?_, ?_⟩
  · rw [← hpre, hm.cons, List.append_assoc]; rfl
  · unfold Session.start; simp only [hmk]; exact hh

theorem step_start (calls : Nat → SolveCall) {s : Session} {i : Nat} (hi : s.its i = none) : s.step calls (.next i) = s.start calls i := by
  simp only [Session.step, hi]

theorem compileAll_sizes (comp : Bool) (cs : List Constraint) (h : Heap) :
    (compileAll comp cs h).ncons = h.ncons ∧ (compileAll comp cs h).nparams = h.nparams :=
  ⟨(compileAll_counts comp cs h).2, (compileAll_counts comp cs h).1⟩

theorem Started.sizes {calls : Nat → SolveCall} {s : Session} {i : Nat} {w : World} {ks : List ObjCon} (h : Started calls s i w ks) :
    (s.start calls i).heap.ncons = w.heap.ncons ∧ (s.start calls i).heap.nparams = w.heap.nparams := by
  obtain ⟨pre, post, _, hh⟩ := h.heap
  rw [hh]; exact compileAll_sizes _ _ _

/-- The new constraints are numbered on, the new parameters too. -/
theorem Started.new {calls : Nat → SolveCall} {s : Session} {i : Nat} {w : World} {ks : List ObjCon} (ho : Orderly s) (h : Started calls s i w ks) :
    ∀ k ∈ ks, k.Proper ∧ (s.start calls i).objs[k.con.id]? = some none ∧ s.objs.length ≤ k.con.id ∧
      ∀ p ∈ k.own, s.heap.nparams ≤ p ∧ p < (s.start calls i).heap.nparams := by
  intro k hk
  have f := h.made.fresh k hk
  have h1 := f.idLo; have h2 := f.idHi; have h3 := ho.ncons; have h4 := h.count
  simp only at h1
  refine ⟨f.proper, ?_, by omega, ?_⟩
  · rw [h.eq]
    simp only
    rw [List.getElem?_append_right (by omega), List.getElem?_map, List.getElem?_eq_getElem (by omega)]
    rfl
  · obtain ⟨p, x, hp, h5, h6, _⟩ := f.notSet
    obtain ⟨q, y, hq, h7, h8, _⟩ := f.bound
    intro r hr
    rw [h.sizes.2]
    simp [ObjCon.own, hp, hq, Expr.params] at hr
    simp only at h5 h7
    rcases hr with rfl | rfl <;> omega

theorem orderly_start (calls : Nat → SolveCall) {s : Session} (h : Orderly s) (i : Nat) : Orderly (s.start calls i) := by
  obtain ⟨w, ks, hs⟩ := started calls h i
  have hnew := hs.new h
  have hsz := hs.sizes
  have hnp := hs.made.nparams
  have hcnt := hs.count
  have ho := h.ncons
  simp only at hnp
  refine ⟨?_, ?_, ?_, ?_, ?_, ?_⟩
  · rw [hsz.1, hs.eq]; simp; omega
  · intro k hk j hj
    rw [hsz.2]
    rw [hs.eq] at hk
    simp only [List.mem_append, List.mem_map] at hk
    rcases hk with hk | ⟨_, _, hk⟩
    · exact Nat.lt_of_lt_of_le (h.params k hk j hj) hnp
    · cases hk
  · intro m c hc
    rw [hs.eq] at hc ⊢
    simp only at hc ⊢
    refine ObjectOf.append ?_ _
    split at hc
    · rw [hs.made.cons] at hc; exact h.models _ c hc
    · exact h.models m c hc
  · intro m
    rw [hs.eq]
    simp only
    split
    · exact hs.made.inv
    · exact h.names m
  · intro j hj
    rw [hs.eq] at hj ⊢
    simp only at hj ⊢
    split at hj
    · cases hj
    · exact h.fresh j hj
  · intro j it hj k hk
    rw [hs.eq] at hj
    simp only at hj
    split at hj
    · cases hj
      obtain ⟨h1, h2, _, h4⟩ := hnew k hk
      exact ⟨h1, h2, fun p hp => (h4 p hp).2⟩
    · have := h.keepIts (l := ks.map (fun _ => none)) (n := (s.start calls i).heap.nparams) (by rw [hsz.2]; exact hnp) j it hj k hk
      rw [hs.eq] at this ⊢
      exact this

theorem orderly_go {calls : Nat → SolveCall} {s : Session} (h : Orderly s) {i : Nat} {it : Iteration} (hi : s.its i = some it) :
    Orderly (s.step calls (.next i)) := by
  have hc := advance_counts it s.heap
  rw [step_go hi]
  refine ⟨by simp only; rw [hc.2]; exact h.ncons, by simp only; rw [hc.1]; exact h.params, h.models, h.names, ?_, ?_⟩
  · intro j hj
    simp only at hj
    split at hj
    · cases hj
    · rename_i hne; simp only [hne, if_false]; exact h.fresh j hj
  · intro j it' hj k hk
    simp only at hj
    simp only
    rw [hc.1]
    split at hj
    · cases hj
      rw [advance_fixed] at hk
      exact h.its i it hi k hk
    · exact h.its j it' hj k hk

theorem orderly_step (calls : Nat → SolveCall) {s : Session} (h : Orderly s) (op : Op) : Orderly (s.step calls op) := by
  by_cases h1 : ∃ i v, op = .setParam i v
  · obtain ⟨i, v, rfl⟩ := h1
    exact ⟨h.ncons, h.params, h.models, h.names, h.fresh, h.its⟩
  by_cases h2 : ∃ i, op = .next i
  · obtain ⟨i, rfl⟩ := h2
    cases hi : s.its i with
    | none => rw [step_start calls hi]; exact orderly_start calls h i
    | some it => exact orderly_go h hi
  · push Not at h1 h2
    exact (quiet_step calls h op h1 h2).orderly

theorem orderly_run (calls : Nat → SolveCall) (ops : List Op) : ∀ {s : Session}, Orderly s → Orderly (s.run calls ops) := by
  induction ops with
  | nil => intro s h; exact h
  | cons op ops ih => intro s h; exact ih (orderly_step calls h op)

/-! ## One iteration in two programs -/

/-- `op` is a step of iteration `i`. -/
def Op.steps (i : Nat) : Op → Bool
  | .next j => j == i
  | _ => false

/-- `n` steps of iteration `i`. -/
def steps (i n : Nat) : List Op := List.replicate n (.next i)

/-- The session `t` is, as far as iteration `i` is concerned, the session `A`. -/
structure Tied (i : Nat) (cfg : RunCfg) (info : Info) (ks : List ObjCon) (I P : Nat → Prop) (Inv : Heap → Prop) (A t : Session) : Prop where
  orderly : Orderly t
  it : ∃ g, t.its i = some ⟨cfg, info, ks, g⟩ ∧ A.its i = some ⟨cfg, info, ks, g⟩
  outs : t.outs i = A.outs i
  agree : Agree I P A.heap t.heap
  inv : Inv A.heap
  lowI : ∀ id, I id → id < t.heap.ncons
  lowP : ∀ p, P p → p < t.heap.nparams
  others : ∀ j, j ≠ i → ∀ it, t.its j = some it → ∀ k ∈ it.objs, ¬ I k.con.id ∧ ∀ p ∈ k.own, ¬ P p

/-- The steps of iteration `i` keep the sessions tied if what it looks at agrees, and the others do if they leave it alone. -/
theorem isolated (calls : Nat → SolveCall) {i : Nat} {cfg : RunCfg} {info : Info} {ks : List ObjCon} {I P : Nat → Prop} {Inv : Heap → Prop}
    (K : Session → Prop) (ops : List Op)
    (hK : ∀ t op, op ∈ ops → Orderly t → K t → (t.its i).isSome → K (t.step calls op))
    (hset : ∀ p v, .setParam p v ∈ ops → ¬ P p)
    (hstart : ∀ A t j, .next j ∈ ops → t.its j = none → Tied i cfg info ks I P Inv A t → K t → Agree I P t.heap (t.start calls j).heap)
    (hcand : ∀ A T, Agree I P A T → Inv A → candidates info T = candidates info A)
    (hinv : ∀ h σ h', Inv h → onSolution ks h σ = .ok h' → Inv h')
    (hks : ∀ k ∈ ks, k.Proper ∧ I k.con.id ∧ (∀ p ∈ k.con.kind.paramIds, P p) ∧ ∀ p ∈ k.obj.expr.params, P p) :
    ∀ A t, Tied i cfg info ks I P Inv A t → K t → Tied i cfg info ks I P Inv (A.run calls (steps i (ops.countP (Op.steps i)))) (t.run calls ops) := by
  induction ops with
  | nil => intro A t h _; exact h
  | cons op ops ih =>
    intro A t h hk
    have hrec := ih (fun t o ho => hK t o (by simp [ho])) (fun p v ho => hset p v (by simp [ho])) (fun A t j ho => hstart A t j (by simp [ho]))
    have hsome : (t.its i).isSome := by obtain ⟨g, hg, _⟩ := h.it; rw [hg]; rfl
    have hk' := hK t op (by simp) h.orderly hk hsome
    have hor := orderly_step calls h.orderly op
    have hrun : t.run calls (op :: ops) = (t.step calls op).run calls ops := rfl
    rw [hrun, List.countP_cons]
    by_cases h2 : ∃ j, op = .next j
    · obtain ⟨j, rfl⟩ := h2
      by_cases hji : j = i
      · subst hji
        have e1 : Op.steps j (.next j) = true := by simp [Op.steps]
        rw [e1, if_pos rfl]
        have hrun' : A.run calls (steps j (ops.countP (Op.steps j) + 1)) = (A.step calls (.next j)).run calls (steps j (ops.countP (Op.steps j))) := rfl
        rw [hrun']
        refine hrec _ _ ?_ hk'
        obtain ⟨g, hg, hgA⟩ := h.it
        have hadv := advance_agree (it := ⟨cfg, info, ks, g⟩) hks (hcand _ _ h.agree h.inv) h.agree
        have hfix := advance_fixed ⟨cfg, info, ks, g⟩ A.heap
        have hcnt := advance_counts ⟨cfg, info, ks, g⟩ t.heap
        refine ⟨hor, ?_, ?_, ?_, ?_, ?_, ?_, ?_⟩
        · rw [step_go hg, step_go hgA]
          refine ⟨((⟨cfg, info, ks, g⟩ : Iteration).advance A.heap).1.gen, ?_, ?_⟩
          · simp only [if_true]; rw [hadv.1, hfix]
          · simp only [if_true]; rw [hfix]
        · rw [step_go hg, step_go hgA]; simp only [if_true]; rw [hadv.2.1, h.outs]
        · rw [step_go hg, step_go hgA]; exact hadv.2.2
        · rw [step_go hgA]
          rcases advance_heap ⟨cfg, info, ks, g⟩ A.heap with he | ⟨σ, he⟩
          · simp only; rw [he]; exact h.inv
          · exact hinv _ _ _ h.inv he
        · rw [step_go hg]; simp only; rw [hcnt.2]; exact h.lowI
        · rw [step_go hg]; simp only; rw [hcnt.1]; exact h.lowP
        · rw [step_go hg]
          intro j' hj' it' hit'
          simp only [if_neg hj'] at hit'
          exact h.others j' hj' it' hit'
      · have e1 : Op.steps i (.next j) = false := by simp [Op.steps, hji]
        rw [e1, if_neg (by simp)]
        refine hrec _ _ ?_ hk'
        cases hj : t.its j with
        | none =>
          obtain ⟨w, ks', hs⟩ := started calls h.orderly j
          have hag := hstart A t j (by simp) hj h hk
          have hnew := hs.new h.orderly
          have hsz := hs.sizes
          have hm1 := hs.made.nparams
          have hm2 := hs.made.ncons
          simp only at hm1 hm2
          rw [step_start calls hj] at hor ⊢
          refine ⟨hor, ?_, ?_, h.agree.trans hag, h.inv, ?_, ?_, ?_⟩
          · obtain ⟨g, hg, hgA⟩ := h.it
            refine ⟨g, ?_, hgA⟩
            rw [hs.eq]; simp only [if_neg (Ne.symm hji)]; exact hg
          · rw [hs.eq]; exact h.outs
          · intro id hid; rw [hsz.1]; exact Nat.lt_of_lt_of_le (h.lowI id hid) hm2
          · intro p hp; rw [hsz.2]; exact Nat.lt_of_lt_of_le (h.lowP p hp) hm1
          · intro j' hj' it' hit' k hk
            rw [hs.eq] at hit'
            simp only at hit'
            split at hit'
            · cases hit'
              obtain ⟨_, _, h3, h4⟩ := hnew k hk
              refine ⟨fun hI => ?_, fun p hp hP => ?_⟩
              · have := h.lowI _ hI; have := h.orderly.ncons; omega
              · have := h.lowP _ hP; have := (h4 p hp).1; omega
            · exact h.others j' hj' it' hit' k hk
        | some it =>
          have hcnt := advance_counts it t.heap
          have hoth := fun k hk => h.others j hji it hj k hk
          have hag : Agree I P t.heap (it.advance t.heap).2.1 :=
            advance_other (fun k hk => ⟨(h.orderly.its j it hj k hk).1, hoth k hk⟩)
          rw [step_go hj] at hor ⊢
          refine ⟨hor, ?_, ?_, h.agree.trans hag, h.inv, ?_, ?_, ?_⟩
          · obtain ⟨g, hg, hgA⟩ := h.it
            refine ⟨g, ?_, hgA⟩
            simp only [if_neg (Ne.symm hji)]; exact hg
          · simp only [if_neg (Ne.symm hji)]; exact h.outs
          · simp only; rw [hcnt.2]; exact h.lowI
          · simp only; rw [hcnt.1]; exact h.lowP
          · intro j' hj' it' hit' k hk
            simp only at hit'
            split at hit'
            · cases hit'
              rw [advance_fixed] at hk
              exact hoth k hk
            · exact h.others j' hj' it' hit' k hk
    · have e1 : Op.steps i op = false := by
        cases op <;> simp [Op.steps]
        exact fun e => h2 ⟨_, rfl⟩
      rw [e1, if_neg (by simp)]
      refine hrec _ _ ?_ hk'
      by_cases h1 : ∃ p v, op = .setParam p v
      · obtain ⟨p, v, rfl⟩ := h1
        refine ⟨hor, h.it, h.outs, h.agree.trans ⟨fun _ _ => rfl, fun q hq => ?_⟩, h.inv, h.lowI, h.lowP, h.others⟩
        simp only [Session.step, Heap.setParam]
        rw [if_neg]
        rintro rfl
        exact hset q v (by simp) hq
      · push Not at h1 h2
        have hq := quiet_step calls h.orderly op h1 h2
        obtain ⟨l, hl⟩ := hq.objs
        refine ⟨hor, ?_, by rw [hq.outs]; exact h.outs, h.agree.trans ⟨fun i hi => ?_, fun p hp => ?_⟩, h.inv, ?_, ?_, ?_⟩
        · rw [hq.its]; exact h.it
        · exact hq.fns i (by rw [← h.orderly.ncons]; exact h.lowI i hi)
        · exact hq.params p (h.lowP p hp)
        · intro id hid
          have := h.lowI id hid
          rw [hq.orderly.ncons, hl, List.length_append, ← h.orderly.ncons]; omega
        · intro p hp; exact Nat.lt_of_lt_of_le (h.lowP p hp) hq.nparams
        · rw [hq.its]; exact h.others

end Satisfy.Props
