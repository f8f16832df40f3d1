import Verif.Lemmas.Session
/-!
# C59, C60, C65: what an iteration in progress depends on
-/

namespace Satisfy.Props
open Satisfy

/-! ## Alone -/

/-- What the constraints of the iteration are. -/
theorem start_cons_mem (a : SolveArgs) (m : Model) (h : Heap) : ∀ x, ∀ c ∈ (startSolve a m h).2.1.cons x, c ∈ m.constraints ++ a.adds := by
  intro x c hc
  unfold startSolve at hc
  split at hc
  · simp [Info.init] at hc
  · cases hs : setup a.solver.compile m a.adds h with
    | mk H r =>
      rw [hs] at hc
      cases r with
      | error e => simp [Info.init] at hc
      | ok info =>
        refine setup_cons hs x c ?_
        simp only at hc
        split at hc <;> exact hc

theorem evaluate_of_fns {h h' : Heap} {c : Constraint} (hf : h.fns c.id = h'.fns c.id) (hp : ∀ p ∈ c.kind.paramIds, h.params p = h'.params p)
    (σ : Subst) : c.evaluate h σ = c.evaluate h' σ := by
  unfold Constraint.evaluate
  cases hk : c.kind with
  | const b => rfl
  | allDiff ns => rfl
  | expr e =>
    simp only [hf]
    cases h'.fns c.id with
    | some f => rfl
    | none => exact eval_params (fun p hq => hp p (by rw [hk]; exact hq)) σ

/-- Starting another iteration, which compiles with the same values of the parameters of `c`. -/
theorem compileAll_fns {comp : Bool} {cs : List Constraint} {h : Heap} {c : Constraint} (hs : ∀ c' ∈ cs, c.id = c'.id → c = c')
    (hn : comp = true → FnNow h c) : (compileAll comp cs h).fns c.id = h.fns c.id := by
  cases comp with
  | false => rfl
  | true =>
    cases hk : c.kind with
    | expr e =>
      have h1 := compileAll_keep (hn rfl) hs e hk
      rw [h1, hn rfl e hk, compileAll_params]
    | const b =>
      simp only [compileAll, if_true]
      clear hn
      induction cs generalizing h with
      | nil => rfl
      | cons c' cs ih =>
        rw [List.foldl_cons, ih (fun c'' hc'' => hs c'' (by simp [hc'']))]
        unfold Constraint.compile
        split
        · rename_i e he
          simp only
          rw [if_neg]
          intro hid
          rw [hs c' (by simp) hid, he] at hk
          cases hk
        · rfl
    | allDiff ns =>
      simp only [compileAll, if_true]
      clear hn
      induction cs generalizing h with
      | nil => rfl
      | cons c' cs ih =>
        rw [List.foldl_cons, ih (fun c'' hc'' => hs c'' (by simp [hc'']))]
        unfold Constraint.compile
        split
        · rename_i e he
          simp only
          rw [if_neg]
          intro hid
          rw [hs c' (by simp) hid, he] at hk
          cases hk
        · rfl

/-- Specification: the settings an iteration works with. An argument of the call counts, the attribute of the solver if it is not given; the additional
constraints are the objects named in the call, in that order. -/
structure AsCalled (c : SolveCall) (own : Solver) (objs : List (Option CKind)) (a : SolveArgs) : Prop where
  timeout : ∀ t, c.args.timeout = some t → a.solver.timeout = t
  limit : ∀ l, c.args.limit = some l → a.solver.limit = l
  policy : ∀ p, c.args.policy = some p → a.solver.policy = p
  ownTimeout : c.args.timeout = none → a.solver.timeout = own.timeout
  ownLimit : c.args.limit = none → a.solver.limit = own.limit
  ownPolicy : c.args.policy = none → a.solver.policy = own.policy
  compile : a.solver.compile = own.compile
  adds : a.adds.map (fun c => c.id) = c.args.adds.filter (fun i => objs[i]?.join.isSome)
  objects : ∀ c ∈ a.adds, objs[c.id]? = some (some c.kind)
  shuffle : a.shuffle = c.shuffle
  clock : a.clock = c.clock

theorem adds_unique (objs : List (Option CKind)) : ∀ (ids : List Nat) (l : List Constraint),
    l.map (fun c => c.id) = ids.filter (fun i => objs[i]?.join.isSome) →
    (∀ c ∈ l, objs[c.id]? = some (some c.kind)) → l = ids.filterMap (objectAt objs)
  | [], l, h, _ => by simpa using h
  | i :: ids, l, h, ho => by
    by_cases hi : objs[i]?.join.isSome = true
    · rw [List.filter_cons_of_pos (p := fun i => objs[i]?.join.isSome) hi] at h
      match l, h with
      | c :: l, h =>
        simp only [List.map_cons, List.cons.injEq] at h
        have ih := adds_unique objs ids l h.2 (fun d hd => ho d (by simp [hd]))
        have : objectAt objs i = some c := objectAt_iff.2 ⟨h.1, ho c (by simp)⟩
        rw [List.filterMap_cons_some this, ← ih]
    · rw [List.filter_cons_of_neg (p := fun i => objs[i]?.join.isSome) hi] at h
      have : objectAt objs i = none := by unfold objectAt; simp at hi; simp [hi]
      rw [List.filterMap_cons_none this]
      exact adds_unique objs ids l h ho

theorem adds_named (objs : List (Option CKind)) : ∀ ids : List Nat,
    (ids.filterMap (objectAt objs)).map (fun c => c.id) = ids.filter (fun i => objs[i]?.join.isSome)
  | [] => rfl
  | i :: ids => by
    have ih := adds_named objs ids
    by_cases hi : objs[i]?.join.isSome = true
    · obtain ⟨k, hk⟩ := Option.isSome_iff_exists.1 hi
      have : objectAt objs i = some ⟨i, k⟩ := by simp [objectAt, hk]
      rw [List.filterMap_cons_some this, List.filter_cons_of_pos (p := fun i => objs[i]?.join.isSome) hi, List.map_cons, ih]
    · have : objectAt objs i = none := by unfold objectAt; simp at hi; simp [hi]
      rw [List.filterMap_cons_none this, List.filter_cons_of_neg (p := fun i => objs[i]?.join.isSome) hi, ih]

/-- The settings that a call determines are those the code computes. -/
theorem asCalled_iff (c : SolveCall) (own : Solver) (objs : List (Option CKind)) (a : SolveArgs) : AsCalled c own objs a ↔ a = c.effective own objs := by
  constructor
  · intro h
    have hadds := adds_unique objs _ _ h.adds h.objects
    obtain ⟨⟨p, t, l, k⟩, adds, sh, cl⟩ := a
    have h1 := h.timeout; have h2 := h.limit; have h3 := h.policy
    have h4 := h.ownTimeout; have h5 := h.ownLimit; have h6 := h.ownPolicy
    have h7 := h.compile; have h8 := h.shuffle; have h9 := h.clock
    simp only at h1 h2 h3 h4 h5 h6 h7 h8 h9 hadds
    subst h7 h8 h9 hadds
    have e1 : t = c.args.timeout.getD own.timeout := by
      cases hx : c.args.timeout with
      | none => simpa using h4 hx
      | some y => simpa using h1 y hx
    have e2 : l = c.args.limit.getD own.limit := by
      cases hx : c.args.limit with
      | none => simpa using h5 hx
      | some y => simpa using h2 y hx
    have e3 : p = c.args.policy.getD own.policy := by
      cases hx : c.args.policy with
      | none => simpa using h6 hx
      | some y => simpa using h3 y hx
    subst e1 e2 e3
    rfl
  · rintro rfl
    refine ⟨?_, ?_, ?_, ?_, ?_, ?_, rfl, adds_named objs _, ?_, rfl, rfl⟩
    · intro t h; simp [SolveCall.effective, h]
    · intro t h; simp [SolveCall.effective, h]
    · intro t h; simp [SolveCall.effective, h]
    · intro h; simp [SolveCall.effective, h]
    · intro h; simp [SolveCall.effective, h]
    · intro h; simp [SolveCall.effective, h]
    · intro d hd
      obtain ⟨i, _, hi⟩ := List.mem_filterMap.1 hd
      exact objectAt_known hi

theorem compileAll_ne {comp : Bool} {cs : List Constraint} {h : Heap} {i : Nat} (hs : ∀ c ∈ cs, c.id ≠ i) : (compileAll comp cs h).fns i = h.fns i := by
  cases comp
  · rfl
  · simp only [compileAll, if_true]
    induction cs generalizing h with
    | nil => rfl
    | cons c cs ih =>
      rw [List.foldl_cons, ih (fun c' hc' => hs c' (by simp [hc']))]
      exact compile_fns_ne _ _ (hs c (by simp)).symm

/-- The constraints an iteration looks at: those of the model and the call, and those of its objectives. -/
theorem Started.cons_mem {calls : Nat → SolveCall} {s : Session} {i : Nat} {w : World} {ks : List ObjCon} (hs : Started calls s i w ks) :
    let a := (calls i).effective (s.solvers (calls i).solver) s.objs
    ∀ x, ∀ c ∈ (startSolve (a.withObjectives ks) w.model w.heap).2.1.cons x,
      c ∈ (s.models (calls i).model).constraints ++ a.adds ∨ ∃ k ∈ ks, c = k.con := by
  intro a x c hc
  have := start_cons_mem _ _ _ x c hc
  rw [hs.made.cons] at this
  simp only [SolveArgs.withObjectives, List.mem_append, List.mem_map] at this ⊢
  rcases this with h | h | ⟨k, hk, rfl⟩
  · exact .inl (.inl h)
  · exact .inl (.inr h)
  · exact .inr ⟨k, hk, rfl⟩

theorem Started.sameIds {calls : Nat → SolveCall} {s : Session} (ho : Orderly s) {i : Nat} {w : World} {ks : List ObjCon} (hs : Started calls s i w ks) :
    let a := (calls i).effective (s.solvers (calls i).solver) s.objs
    SameIds (w.model.constraints ++ (a.withObjectives ks).adds) := by
  intro a
  have hmem : ∀ c ∈ w.model.constraints ++ (a.withObjectives ks).adds, ObjectOf s.objs c ∨ ∃ k ∈ ks, c = k.con := by
    intro c hc
    rw [hs.made.cons] at hc
    simp only [SolveArgs.withObjectives, List.mem_append, List.mem_map] at hc
    rcases hc with h | h | ⟨k, hk, rfl⟩
    · exact .inl (effective_known ho i (List.mem_append_left _ h))
    · exact .inl (effective_known ho i (List.mem_append_right _ h))
    · exact .inr ⟨k, hk, rfl⟩
  have hnew := hs.new ho
  intro c hc c' hc' he
  rcases hmem c hc with h | ⟨k, hk, rfl⟩ <;> rcases hmem c' hc' with h' | ⟨k', hk', rfl⟩
  · exact h.same h' he
  · have := h.lt; have := (hnew k' hk').2.2.1; omega
  · have := h'.lt; have := (hnew k hk).2.2.1; omega
  · rw [List.inj_on_of_nodup_map hs.made.ids hk hk' he]

/-- The general form of C59 and C65. -/
theorem run_isolated (calls : Nat → SolveCall) (before after : List Op) (i : Nat) :
    let s := Session.init.run calls before
    let a := (calls i).effective (s.solvers (calls i).solver) s.objs
    let m := s.models (calls i).model
    let s' := s.step calls (.next i)
    s.its i = none →
    (∀ o ∈ (calls i).objectives, ∀ p ∈ o.expr.params, p < s.heap.nparams) →
    (∀ j it, s.its j = some it → ∀ k ∈ it.objs, ∀ p ∈ k.own,
      (∀ c ∈ m.constraints ++ a.adds, p ∉ c.kind.paramIds) ∧ ∀ o ∈ (calls i).objectives, p ∉ o.expr.params) →
    (∀ p v, .setParam p v ∈ after → (∀ c ∈ m.constraints ++ a.adds, p ∉ c.kind.paramIds) ∧
      (∀ o ∈ (calls i).objectives, p ∉ o.expr.params) ∧ (p < s.heap.nparams ∨ s'.heap.nparams ≤ p)) →
    (a.solver.compile = true ∨
      (∀ j, (s.solvers (calls j).solver).compile = false) ∧ ∀ j t, .config j t ∈ after → t.compile = false) →
    let t := s'.run calls after
    let u := s'.run calls (steps i (after.countP (Op.steps i)))
    t.its i = u.its i ∧ t.outs i = u.outs i := by
  intro s a m s' hi hobj hown hpar hcomp t u
  have ht : Orderly s := orderly_run calls before orderly_init
  have hknown : ∀ c ∈ m.constraints ++ a.adds, ObjectOf s.objs c := fun c hc => effective_known ht i hc
  obtain ⟨w, ks, hs⟩ := started calls ht i
  have hmem : ∀ x, ∀ c ∈ (startSolve (a.withObjectives ks) w.model w.heap).2.1.cons x, c ∈ m.constraints ++ a.adds ∨ ∃ k ∈ ks, c = k.con := hs.cons_mem
  have hids := hs.sameIds ht
  have hnew := hs.new ht
  have hs' : s' = s.start calls i := step_start calls hi
  have hord : Orderly s' := orderly_step calls ht _
  have hlen := ht.ncons
  have hobjs : s'.objs = s.objs ++ ks.map (fun _ => none) := by rw [hs', hs.eq]
  have hnp : s.heap.nparams ≤ s'.heap.nparams := by rw [hs', hs.sizes.2]; exact hs.made.nparams
  have hnc : s.heap.ncons ≤ s'.heap.ncons := by rw [hs', hs.sizes.1]; exact hs.made.ncons
  have hkobj : ∀ k ∈ ks, k.obj ∈ (calls i).objectives := fun k hk => by rw [← hs.made.objs]; exact List.mem_map.2 ⟨k, hk, rfl⟩
  generalize hinfo : (startSolve (a.withObjectives ks) w.model w.heap).2.1 = info at hmem
  have hparams : ∀ k ∈ ks, ∀ p ∈ k.con.kind.paramIds, p ∈ k.obj.expr.params ∨ p ∈ k.own := fun k hk => proper_params (hnew k hk).1
  let I : Nat → Prop := fun id => (∃ x, ∃ c ∈ info.cons x, c.id = id) ∨ ∃ k ∈ ks, k.con.id = id
  let P : Nat → Prop := fun p => (∃ c ∈ m.constraints ++ a.adds, p ∈ c.kind.paramIds) ∨ ∃ k ∈ ks, p ∈ k.obj.expr.params ∨ p ∈ k.own
  let Inv : Heap → Prop := fun h => a.solver.compile = true → ∀ x, ∀ c ∈ info.cons x, c ∈ m.constraints ++ a.adds → FnNow h c
  have hPcons : ∀ x, ∀ c ∈ info.cons x, ∀ p ∈ c.kind.paramIds, P p := by
    intro x c hc p hp
    rcases hmem x c hc with hc' | ⟨k, hk, rfl⟩
    · exact .inl ⟨c, hc', hp⟩
    · exact .inr ⟨k, hk, hparams k hk p hp⟩
  have hinit : Tied i a.cfg info ks I P Inv s' s' := by
    refine ⟨hord, ⟨(startSolve (a.withObjectives ks) w.model w.heap).2.2, ?_, ?_⟩, rfl, .refl _ _ _, ?_, ?_, ?_, ?_⟩
    · rw [hs', hs.eq, ← hinfo]; simp [a]
    · rw [hs', hs.eq, ← hinfo]; simp [a]
    · intro hc x c hx _
      have := (start_cons_now (a := a.withObjectives ks) hc hids w.heap x c (by rw [hinfo]; exact hx)).2
      rw [hs', hs.eq]; exact this
    · rintro id (⟨x, c, hc, rfl⟩ | ⟨k, hk, rfl⟩)
      · rcases hmem x c hc with hc' | ⟨k, hk, rfl⟩
        · have := (hknown c hc').lt; omega
        · have := (List.getElem?_eq_some_iff.1 (hnew k hk).2.1).1
          rw [hord.ncons, hs']; exact this
      · have := (List.getElem?_eq_some_iff.1 (hnew k hk).2.1).1
        rw [hord.ncons, hs']; exact this
    · rintro p (⟨c, hc, hp⟩ | ⟨k, hk, hp | hp⟩)
      · exact Nat.lt_of_lt_of_le (ht.params _ (hknown c hc).mem p hp) hnp
      · exact Nat.lt_of_lt_of_le (hobj _ (hkobj k hk) p hp) hnp
      · rw [hs']; exact ((hnew k hk).2.2.2 p hp).2
    · intro j hj it hit k hk
      rw [hs', hs.eq] at hit
      simp only [if_neg hj] at hit
      obtain ⟨h1, h2, h3⟩ := ht.its j it hit k hk
      have hlt := (List.getElem?_eq_some_iff.1 h2).1
      refine ⟨?_, ?_⟩
      · rintro (⟨x, c, hc, hid⟩ | ⟨k', hk', hid⟩)
        · rcases hmem x c hc with hc' | ⟨k', hk', rfl⟩
          · have := hknown c hc'
            unfold ObjectOf at this
            rw [hid, h2] at this
            cases this
          · have := (hnew k' hk').2.2.1; omega
        · have := (hnew k' hk').2.2.1; omega
      · intro p hp
        obtain ⟨h4, h5⟩ := hown j it hit k hk p hp
        rintro (⟨c, hc, hq⟩ | ⟨k', hk', hq | hq⟩)
        · exact h4 c hc hq
        · exact h5 _ (hkobj k' hk') hq
        · have := ((hnew k' hk').2.2.2 p hq).1; have := h3 p hp; omega
  have := isolated calls (i := i) (cfg := a.cfg) (info := info) (ks := ks) (I := I) (P := P) (Inv := Inv)
    (K := fun t => (∃ l, t.objs = s'.objs ++ l) ∧ (a.solver.compile = true ∨ ∀ j, (t.solvers (calls j).solver).compile = false)) after
    ?_ ?_ ?_ ?_ ?_ ?_ s' s' hinit ?_
  · obtain ⟨g, hg, hg'⟩ := this.it
    exact ⟨hg.trans hg'.symm, this.outs⟩
  · rintro t op hop ho ⟨⟨l, hl⟩, hcp⟩ _
    have hsolv : (a.solver.compile = true ∨ ∀ j, (t.solvers (calls j).solver).compile = false) →
        (a.solver.compile = true ∨ ∀ j, ((t.step calls op).solvers (calls j).solver).compile = false) := by
      rintro (h | h)
      · exact .inl h
      · rcases hcomp with hcomp | ⟨_, hcf⟩
        · exact .inl hcomp
        right
        intro j
        cases op <;> simp only [Session.step, Session.api, Session.create]
        case config k u =>
          split
          · exact hcf k u hop
          · exact h j
        case addCon => split <;> exact h j
        case newCon => split <;> exact h j
        case addObject => split <;> exact h j
        case next k =>
          split
          · obtain ⟨w', ks', hs2⟩ := started calls ho k
            rw [hs2.eq]; exact h j
          · exact h j
        all_goals exact h j
    refine ⟨?_, hsolv hcp⟩
    by_cases h1 : ∃ p v, op = .setParam p v
    · obtain ⟨p, v, rfl⟩ := h1; exact ⟨l, hl⟩
    by_cases h2 : ∃ j, op = .next j
    · obtain ⟨j, rfl⟩ := h2
      cases hj : t.its j with
      | none =>
        obtain ⟨w', ks', hs2⟩ := started calls ho j
        rw [step_start calls hj, hs2.eq]
        exact ⟨l ++ ks'.map (fun _ => none), by simp only; rw [hl, List.append_assoc]⟩
      | some it => rw [step_go hj]; exact ⟨l, hl⟩
    · push Not at h1 h2
      obtain ⟨l', hl'⟩ := (quiet_step calls ho op h1 h2).objs
      exact ⟨l ++ l', by rw [hl', hl, List.append_assoc]⟩
  · intro p v hop
    obtain ⟨h1, h2, h3⟩ := hpar p v hop
    rintro (⟨c, hc, hq⟩ | ⟨k', hk', hq | hq⟩)
    · exact h1 c hc hq
    · exact h2 _ (hkobj k' hk') hq
    · have := (hnew k' hk').2.2.2 p hq
      rw [← hs'] at this
      omega
  · rintro A t j _ hj htied ⟨⟨l, hl⟩, hcp⟩
    obtain ⟨w', ks', hs2⟩ := started calls htied.orderly j
    obtain ⟨pre, post, hpre, hheap⟩ := hs2.heap
    have hm := hs2.made
    have hfr : Agree I P t.heap w'.heap :=
      ⟨fun id hid => hm.fns id (htied.lowI id hid), fun p hp => hm.params p (htied.lowP p hp)⟩
    rw [hheap]
    refine hfr.trans ⟨fun id hid => ?_, fun p hp => by rw [compileAll_params]⟩
    have hpremem : ∀ c ∈ pre, ObjectOf t.objs c ∨ t.heap.ncons ≤ c.id := by
      intro c hc
      have : c ∈ pre ++ post := List.mem_append_left _ hc
      rw [← hpre, List.mem_append, List.mem_map] at this
      rcases this with h | ⟨k, hk, rfl⟩
      · exact .inl (effective_known htied.orderly j h)
      · exact .inr (hm.fresh k hk).idLo
    by_cases hshared : ∃ c ∈ m.constraints ++ a.adds, c.id = id ∧ ∃ x, c ∈ info.cons x
    · obtain ⟨c, hc, rfl, x, hx⟩ := hshared
      have hco : ObjectOf t.objs c := by
        rw [hl, hobjs, List.append_assoc]; exact (hknown c hc).append _
      refine compileAll_fns (fun c' hc' he => ?_) (fun hc1 => ?_)
      · rcases hpremem c' hc' with h | h
        · exact hco.same h he
        · have := hco.lt; have := htied.orderly.ncons; omega
      · rcases hcp with hcp | hcp
        · have hnow := htied.inv hcp x c hx hc
          intro e he
          rw [hfr.1 _ hid, htied.agree.1 _ hid, hnow e he]
          congr 1
          refine asFunction_params (fun p hp => ?_)
          have hPp : P p := .inl ⟨c, hc, by rw [he]; exact hp⟩
          rw [hfr.2 p hPp, htied.agree.2 p hPp]
        · rw [hcp j] at hc1; cases hc1
    · have hkid : ∃ k ∈ ks, k.con.id = id := by
        rcases hid with ⟨x, c, hc, rfl⟩ | h
        · rcases hmem x c hc with hc' | ⟨k, hk, rfl⟩
          · exact absurd ⟨c, hc', rfl, x, hc⟩ hshared
          · exact ⟨k, hk, rfl⟩
        · exact h
      obtain ⟨k, hk, rfl⟩ := hkid
      refine compileAll_ne (fun c hc he => ?_)
      have hnone : t.objs[k.con.id]? = some none := by
        rw [hl, hs', List.getElem?_append_left (List.getElem?_eq_some_iff.1 (hnew k hk).2.1).1]
        exact (hnew k hk).2.1
      rcases hpremem c hc with h | h
      · unfold ObjectOf at h; rw [he, hnone] at h; cases h
      · have := (List.getElem?_eq_some_iff.1 hnone).1; have := htied.orderly.ncons; omega
  · intro A T hag _
    refine candidates_congr (fun x c hc σ => evaluate_of_fns (hag.1 _ (.inl ⟨x, c, hc, rfl⟩)) (fun p hp => hag.2 p (hPcons x c hc p hp)) σ)
  · intro h σ h' hI hsol hc x c hx hcm e he
    have hst := onSolution_steady hs.made.fresh hsol
    have hko := hknown c hcm
    rw [← hst.2 c.id (by simp only; rw [hlen]; exact hko.lt), hI hc x c hx hcm e he]
    congr 1
    exact asFunction_params (fun p hp => hst.1 p (ht.params _ hko.mem p (by rw [he]; exact hp)))
  · intro k hk
    exact ⟨(hnew k hk).1, .inr ⟨k, hk, rfl⟩, fun p hp => .inr ⟨k, hk, hparams k hk p hp⟩, fun p hp => .inr ⟨k, hk, .inl hp⟩⟩
  · exact ⟨⟨[], by simp⟩, hcomp.imp id (fun h => by rw [hs', hs.eq]; exact h.1)⟩

/-! ## C59 -/

/-- What iteration `i` of `solve` is after `n` steps of its own if it is alone: started with the arguments `a` on the model `m` in the heap `h`. -/
structure AsAlone (a : SolveArgs) (m : Model) (h : Heap) (n : Nat) (i : Nat) (t : Session) : Prop where
  it : t.its i = some ⟨a.cfg, (startSolve a m h).2.1, [], (solveRun a m passive n h).2.1⟩
  outs : t.outs i = (solveRun a m passive n h).1

/-- Domains have no repetitions, compiled functions belong to their constraints. -/
structure Healthy (s : Session) : Prop where
  doms : ∀ m x d, (s.models m).domain? x = some d → d.Nodup
  fns : ∀ c, ObjectOf s.objs c → FnOk s.heap c

theorem compileAll_healthy {objs : List (Option CKind)} (comp : Bool) {cs : List Constraint} {h : Heap}
    (hcs : ∀ c ∈ cs, ObjectOf objs c ∨ objs.length ≤ c.id)
    (hf : ∀ c, ObjectOf objs c → FnOk h c) : ∀ c, ObjectOf objs c → FnOk (compileAll comp cs h) c := by
  cases comp
  · exact hf
  · simp only [compileAll, if_true]
    induction cs generalizing h with
    | nil => exact hf
    | cons c' cs ih =>
      rw [List.foldl_cons]
      refine ih (fun c hc => hcs c (by simp [hc])) (fun c hc => ?_)
      refine C09_compile_ok h c' c (fun he => ?_) (hf c hc)
      rcases hcs c' (by simp) with h' | h'
      · rw [hc.same h' he]
      · have := hc.lt; omega

theorem healthy_create {s : Session} (ho : Orderly s) (h : Healthy s) (k : CKind) : Healthy (s.create k) := by
  refine ⟨h.doms, fun c hc e f he hf => ?_⟩
  simp only [Session.create, Heap.newConstraint] at hf
  split at hf
  · cases hf
  · rename_i hne
    refine h.fns c ?_ e f he hf
    have hlt := hc.lt
    simp only [Session.create, List.length_append, List.length_singleton] at hlt
    have := ho.ncons
    unfold ObjectOf at hc ⊢
    simp only [Session.create] at hc
    rw [List.getElem?_append_left (by omega)] at hc
    exact hc

theorem healthy_addCon {s : Session} (h : Healthy s) (m : Nat) (c : Constraint) : Healthy (s.api m (addConstraint (.constraint c))) := by
  have key : ∀ w : World, w.heap = s.heap → w.model.vars = (s.models m).vars →
      Healthy { s with models := fun j => if j = m then w.model else s.models j, heap := w.heap } := by
    intro w h1 h2
    refine ⟨fun j x d hd => ?_, by rw [h1]; exact h.fns⟩
    simp only at hd
    split at hd
    · refine h.doms m x d ?_
      simpa [Model.domain?, h2] using hd
    · exact h.doms j x d hd
  unfold Session.api
  apply key
  all_goals rw [addCon_effect]
  all_goals split
  all_goals (try split)
  all_goals (try split)
  all_goals simp

theorem domain_append {vars : Dict VarInfo} {cs cs' : List Constraint} {b b' : Bool} {nm : Name} {i : VarInfo} {x : Name} {d : List Int}
    (hd : (⟨vars ++ [(nm, i)], cs, b⟩ : Model).domain? x = some d) : (⟨vars, cs', b'⟩ : Model).domain? x = some d ∨ i.domain = some d := by
  simp only [Model.domain?, Dict.get?_append] at hd ⊢
  cases hg : vars.get? x with
  | some j => rw [hg] at hd; left; simpa using hd
  | none =>
    rw [hg] at hd
    simp only [Dict.get?, Option.none_or] at hd
    split at hd
    · right; simpa using hd
    · simp at hd

theorem healthy_step (calls : Nat → SolveCall) {s : Session} (ho : Orderly s) (h : Healthy s) (op : Op) : Healthy (s.step calls op) := by
  cases op with
  | addInt m d n =>
    simp only [Session.step, Session.api]
    rcases addInt_effect d n ⟨s.models m, s.heap⟩ (ho.names m) with ⟨e, he⟩ | ⟨nm, he, hnd, _, _⟩ <;> rw [he]
    · refine ⟨fun j x d hd => ?_, h.fns⟩
      simp only at hd
      split at hd
      · exact h.doms m x d hd
      · exact h.doms j x d hd
    · refine ⟨fun j x d' hd => ?_, h.fns⟩
      simp only at hd
      split at hd
      · rcases domain_append hd with hd | hd
        · exact h.doms m x d' hd
        · simp at hd; subst hd; exact hnd
      · exact h.doms j x d' hd
  | addParam m v n =>
    simp only [Session.step, Session.api]
    rcases addParam_effect v n ⟨s.models m, s.heap⟩ (ho.names m) with ⟨e, he⟩ | ⟨nm, he, _, _⟩ <;> rw [he]
    · refine ⟨fun j x d hd => ?_, h.fns⟩
      simp only at hd
      split at hd
      · exact h.doms m x d hd
      · exact h.doms j x d hd
    · refine ⟨fun j x d' hd => ?_, h.fns⟩
      simp only at hd
      split at hd
      · rcases domain_append hd with hd | hd
        · exact h.doms m x d' hd
        · simp at hd
      · exact h.doms j x d' hd
  | addCon m k =>
    simp only [Session.step]
    split
    · exact healthy_addCon (healthy_create ho h k) m _
    · exact h
  | newCon k =>
    simp only [Session.step]
    split
    · exact healthy_create ho h k
    · exact h
  | addObject m i =>
    simp only [Session.step]
    split
    · exact healthy_addCon h m _
    · exact h
  | setParam i v => exact ⟨h.doms, h.fns⟩
  | config j t => exact ⟨h.doms, h.fns⟩
  | next i =>
    cases hi : s.its i with
    | none =>
      obtain ⟨w, ks, hs⟩ := started calls ho i
      obtain ⟨pre, post, hpre, hh⟩ := hs.heap
      have hm := hs.made
      rw [step_start calls hi]
      refine ⟨fun j x d hd => ?_, fun c hc => ?_⟩
      · rw [hs.eq] at hd
        simp only at hd
        split at hd
        · rw [made_domain hm] at hd; exact h.doms _ x d hd
        · exact h.doms j x d hd
      · have hold : ObjectOf s.objs c := by
          rw [hs.eq] at hc
          unfold ObjectOf at hc ⊢
          simp only at hc
          rw [List.getElem?_append] at hc
          split at hc
          · exact hc
          · rw [List.getElem?_map] at hc
            cases hk : ks[c.id - s.objs.length]? <;> rw [hk] at hc <;> simp at hc
        rw [hh]
        refine compileAll_healthy (objs := s.objs) _ (fun c hc => ?_) (fun c hc => ?_) c hold
        · have : c ∈ pre ++ post := List.mem_append_left _ hc
          rw [← hpre, List.mem_append, List.mem_map] at this
          rcases this with h | ⟨k, hk, rfl⟩
          · exact .inl (effective_known ho i h)
          · exact .inr (by rw [← ho.ncons]; exact (hm.fresh k hk).idLo)
        · intro e f he hf
          rw [hm.fns _ (by simp only; rw [ho.ncons]; exact hc.lt)] at hf
          exact h.fns c hc e f he hf
    | some it =>
      rw [step_go hi]
      refine ⟨h.doms, fun c hc e f he hf => ?_⟩
      have hag : Agree (fun id => ∃ c, ObjectOf s.objs c ∧ c.id = id) (fun _ => False) s.heap (it.advance s.heap).2.1 :=
        advance_other (fun k hk => ⟨(ho.its i it hi k hk).1, (by
          rintro ⟨c, hc, hid⟩
          unfold ObjectOf at hc
          rw [hid, (ho.its i it hi k hk).2.1] at hc
          cases hc), fun _ _ => id⟩)
      simp only at hf
      rw [hag.1 _ ⟨c, hc, rfl⟩] at hf
      exact h.fns c hc e f he hf

theorem healthy_run (calls : Nat → SolveCall) (ops : List Op) : ∀ {s : Session}, Orderly s → Healthy s → Healthy (s.run calls ops) := by
  induction ops with
  | nil => intro s _ h; exact h
  | cons op ops ih => intro s ho h; exact ih (orderly_step calls ho op) (healthy_step calls ho h op)

theorem healthy_init : Healthy .init :=
  ⟨by simp [Session.init, Model.empty, Model.domain?, Dict.get?], by intro c hc; simp [ObjectOf, Session.init] at hc⟩

/-- Whatever a program did before, an iteration that starts now meets the assumptions of the theorems about `solve`. -/
theorem session_ok (calls : Nat → SolveCall) (before : List Op) (i : Nat) (hs : ∀ l, ((calls i).shuffle l).Perm l) :
    let s := Session.init.run calls before
    SolveOk ((calls i).effective (s.solvers (calls i).solver) s.objs) (s.models (calls i).model) s.heap := by
  intro s
  have ho : Orderly s := orderly_run calls before orderly_init
  have hh : Healthy s := healthy_run calls before orderly_init healthy_init
  exact ⟨hs, ⟨(ho.names _).1, hh.doms _⟩, fun c hc c' hc' he => (effective_known ho i hc).same (effective_known ho i hc') he,
    fun c hc => hh.fns c (effective_known ho i hc)⟩

/-- An iteration of `solve` that runs alone is a run of `solve`. -/
theorem alone_solve (calls : Nat → SolveCall) {s : Session} (ho : Orderly s) {i : Nat} (hi : s.its i = none) (hob : (calls i).objectives = []) (n : Nat) :
    AsAlone ((calls i).effective (s.solvers (calls i).solver) s.objs) (s.models (calls i).model) s.heap n i
      ((s.step calls (.next i)).run calls (steps i n)) ∧
    ((s.step calls (.next i)).run calls (steps i n)).heap =
      (startSolve ((calls i).effective (s.solvers (calls i).solver) s.objs) (s.models (calls i).model) s.heap).1 := by
  let a := (calls i).effective (s.solvers (calls i).solver) s.objs
  have hwith : a.withObjectives [] = a := by simp [SolveArgs.withObjectives]
  have hst : s.step calls (.next i) = { s with
      models := fun j => if j = (calls i).model then s.models (calls i).model else s.models j
      heap := (startSolve a (s.models (calls i).model) s.heap).1
      objs := s.objs ++ []
      its := fun j => if j = i then some ⟨a.cfg, (startSolve a (s.models (calls i).model) s.heap).2.1, [],
        (startSolve a (s.models (calls i).model) s.heap).2.2⟩ else s.its j } := by
    rw [step_start calls hi, Session.start]
    simp only [hob, makeConstraints, pure, Api.pure]
    rw [show ((calls i).effective (s.solvers (calls i).solver) s.objs).withObjectives [] = a from hwith]
    rfl
  induction n with
  | zero =>
    show AsAlone a _ _ 0 i (s.step calls (.next i)) ∧ (s.step calls (.next i)).heap = _
    rw [hst]
    refine ⟨⟨?_, ?_⟩, rfl⟩
    · simp [solveRun_eq, sysRun]
    · rw [solveRun_eq]; exact ho.fresh i hi
  | succ n ih =>
    have hrun : (s.step calls (.next i)).run calls (steps i (n + 1)) = ((s.step calls (.next i)).run calls (steps i n)).step calls (.next i) := by
      unfold Session.run steps
      rw [List.replicate_succ', List.foldl_append]; rfl
    rw [hrun]
    obtain ⟨⟨h1, h2⟩, h3⟩ := ih
    have hmore := sysRun_one_more a.cfg (candidates (startSolve a (s.models (calls i).model) s.heap).2.1) passive n
      (startSolve a (s.models (calls i).model) s.heap).2.2 (startSolve a (s.models (calls i).model) s.heap).1
    rw [← solveRun_eq, ← solveRun_eq] at hmore
    simp only at hmore
    rw [run_heap] at hmore
    rw [step_go h1, advance_plain rfl, h3]
    refine ⟨⟨?_, ?_⟩, rfl⟩
    · simp only [if_true]; rw [hmore]
    · simp only [if_true]; rw [hmore, h2]; rfl

theorem start_nparams {calls : Nat → SolveCall} {s : Session} (ho : Orderly s) {i : Nat} (hi : s.its i = none) (hob : (calls i).objectives = []) :
    (s.step calls (.next i)).heap.nparams = s.heap.nparams := by
  rw [step_start calls hi]
  obtain ⟨w, ks, hs⟩ := started calls ho i
  have := hs.make
  simp only [hob, makeConstraints, pure, Api.pure, Prod.mk.injEq] at this
  rw [hs.sizes.2, ← this.1]

/-- C59: an iteration works on the model and the settings as they are at its first step; whatever the program does then, adding to this
model and others, changing settings, starting and advancing other iterations of `solve` and `optimize`, it hands out what it would alone. Not part of
it: assignments to parameters in its constraints (C60), also by an optimisation whose own parameter the program has put in a constraint; and, if it
does not compile, other iterations that do (C31). -/
theorem C59_isolated (calls : Nat → SolveCall) (before after : List Op) (i : Nat) :
    let s := Session.init.run calls before
    ∀ a, AsCalled (calls i) (s.solvers (calls i).solver) s.objs a →
    let m := s.models (calls i).model
    s.its i = none → (calls i).objectives = [] →
    (∀ j it, s.its j = some it → ∀ k ∈ it.objs, ∀ p ∈ k.own, ∀ c ∈ m.constraints ++ a.adds, p ∉ c.kind.paramIds) →
    (∀ p v, .setParam p v ∈ after → ∀ c ∈ m.constraints ++ a.adds, p ∉ c.kind.paramIds) →
    (a.solver.compile = true ∨
      (∀ j, (s.solvers (calls j).solver).compile = false) ∧ ∀ j t, .config j t ∈ after → t.compile = false) →
    AsAlone a m s.heap (after.countP (Op.steps i)) i (s.run calls (.next i :: after)) := by
  intro s a hcall m hi hob hown hpar hcomp
  obtain rfl := (asCalled_iff _ _ _ a).1 hcall
  have ho : Orderly s := orderly_run calls before orderly_init
  obtain ⟨⟨h1, h2⟩, h3⟩ := alone_solve calls ho hi hob (after.countP (Op.steps i))
  have := run_isolated calls before after i hi (by rw [hob]; simp)
    (fun j it hj k hk p hp => ⟨hown j it hj k hk p hp, by rw [hob]; simp⟩)
    (fun p v hp => ⟨hpar p v hp, by rw [hob]; simp, by
      rw [show (Session.init.run calls before) = s from rfl, start_nparams ho hi hob]; exact Nat.lt_or_ge p s.heap.nparams⟩) hcomp
  exact ⟨this.1.trans h1, this.2.trans h2⟩

/-- C59 spelled out: under the conditions of `C59_isolated`, at any time the iteration has handed out solutions of the model as it was at the
first step (`IsSolution`), none twice; and all of them if it has ended and was not interrupted. -/
theorem C59_solutions (calls : Nat → SolveCall) (before after : List Op) (i : Nat) (hs : ∀ l, ((calls i).shuffle l).Perm l) :
    let s := Session.init.run calls before
    ∀ a, AsCalled (calls i) (s.solvers (calls i).solver) s.objs a →
    let m := s.models (calls i).model
    let t := s.run calls (.next i :: after)
    let H := (startSolve a m s.heap).1
    s.its i = none → (calls i).objectives = [] →
    (∀ j it, s.its j = some it → ∀ k ∈ it.objs, ∀ p ∈ k.own, ∀ c ∈ m.constraints ++ a.adds, p ∉ c.kind.paramIds) →
    (∀ p v, .setParam p v ∈ after → ∀ c ∈ m.constraints ++ a.adds, p ∉ c.kind.paramIds) →
    (a.solver.compile = true ∨
      (∀ j, (s.solvers (calls j).solver).compile = false) ∧ ∀ j t, .config j t ∈ after → t.compile = false) →
    (∀ c ∈ m.constraints ++ a.adds, Over m c) →
    (∀ τ ∈ t.outs i, IsSolution m (m.constraints ++ a.adds) H τ) ∧
    (t.outs i).Pairwise (fun σ τ => ¬ SameDict σ τ) ∧
    (m.solvable = true → (∃ x, (m.domain? x).isSome) → (∃ it, t.its i = some it ∧ it.gen.phase = .finished ∧ it.gen.interrupt = none) →
      ∀ τ, IsSolution m (m.constraints ++ a.adds) H τ → ∃ τ' ∈ t.outs i, SameDict τ' τ) := by
  intro s a hcall m t H hi hob hown hpar hcomp hover
  have hcall0 := hcall
  obtain rfl := (asCalled_iff _ _ _ a).1 hcall
  let a := (calls i).effective (s.solvers (calls i).solver) s.objs
  have hok := session_ok calls before i hs
  have hal := C59_isolated calls before after i _ hcall0 hi hob hown hpar hcomp
  have hH := run_heap a m (after.countP (Op.steps i)) s.heap
  refine ⟨?_, ?_, ?_⟩
  · rw [hal.outs]
    intro τ hτ
    have := C14_sound hok hover _ τ hτ
    rwa [hH] at this
  · rw [hal.outs]; exact C16_distinct hok _
  · rintro hsol hvar ⟨it, hg, hf, hn⟩ τ hτ
    rw [hal.it] at hg
    simp only [Option.some.injEq] at hg
    subst hg
    rw [hal.outs]
    exact C15_complete hok hsol hvar _ hf hn τ (by rw [hH]; exact hτ)

/-! ## C60 -/

theorem onSolution_some {ks : List ObjCon} {σ : Subst} {i : Nat} : ∀ {h h' : Heap}, onSolution ks h σ = .ok h' → (h.fns i).isSome → (h'.fns i).isSome := by
  induction ks with
  | nil => intro h h' he hi; simp only [onSolution, Except.ok.injEq] at he; subst he; exact hi
  | cons k ks ih =>
    intro h h' he hi
    simp only [onSolution, ObjCon.addSolution, bind_eq_ok, pure_res, Except.ok.injEq] at he
    obtain ⟨s1, ⟨v, _, rfl⟩, h2⟩ := he
    refine ih h2 ?_
    unfold ObjCon.setBound
    simp only
    split
    · unfold Constraint.compile
      split
      · simp only; split
        · rfl
        · simp only [assign_fns]; exact hi
      · simp only [assign_fns]; exact hi
    · simp only [assign_fns]; exact hi

/-- The general form of C60. -/
theorem run_kept (calls : Nat → SolveCall) (before after : List Op) (i : Nat) :
    let s := Session.init.run calls before
    let a := (calls i).effective (s.solvers (calls i).solver) s.objs
    let s' := s.step calls (.next i)
    s.its i = none → a.solver.compile = true →
    (∀ o ∈ (calls i).objectives, ∀ p ∈ o.expr.params, p < s.heap.nparams) →
    (∀ j it, s.its j = some it → ∀ k ∈ it.objs, ∀ p ∈ k.own, ∀ o ∈ (calls i).objectives, p ∉ o.expr.params) →
    (∀ p v, .setParam p v ∈ after → (∀ o ∈ (calls i).objectives, p ∉ o.expr.params) ∧ (p < s.heap.nparams ∨ s'.heap.nparams ≤ p)) →
    (∀ j, .next j ∈ after → j = i ∨ s.its j ≠ none) →
    let t := s'.run calls after
    let u := s'.run calls (steps i (after.countP (Op.steps i)))
    t.its i = u.its i ∧ t.outs i = u.outs i := by
  intro s a s' hi hcomp hobj hown hpar hst t u
  have ht : Orderly s := orderly_run calls before orderly_init
  obtain ⟨w, ks, hs⟩ := started calls ht i
  have hmem : ∀ x, ∀ c ∈ (startSolve (a.withObjectives ks) w.model w.heap).2.1.cons x,
      c ∈ (s.models (calls i).model).constraints ++ a.adds ∨ ∃ k ∈ ks, c = k.con := hs.cons_mem
  have hids := hs.sameIds ht
  have hnew := hs.new ht
  have hs' : s' = s.start calls i := step_start calls hi
  have hord : Orderly s' := orderly_step calls ht _
  have hlen := ht.ncons
  have hnp : s.heap.nparams ≤ s'.heap.nparams := by rw [hs', hs.sizes.2]; exact hs.made.nparams
  have hnc : s.heap.ncons ≤ s'.heap.ncons := by rw [hs', hs.sizes.1]; exact hs.made.ncons
  have hkobj : ∀ k ∈ ks, k.obj ∈ (calls i).objectives := fun k hk => by rw [← hs.made.objs]; exact List.mem_map.2 ⟨k, hk, rfl⟩
  have hnow := start_cons_now (a := a.withObjectives ks) hcomp hids w.heap
  generalize hinfo : (startSolve (a.withObjectives ks) w.model w.heap).2.1 = info at hmem hnow
  let I : Nat → Prop := fun id => (∃ x, ∃ c ∈ info.cons x, c.id = id) ∨ ∃ k ∈ ks, k.con.id = id
  let P : Nat → Prop := fun p => ∃ k ∈ ks, p ∈ k.obj.expr.params ∨ p ∈ k.own
  let Inv : Heap → Prop := fun h => ∀ x, ∀ c ∈ info.cons x, ∀ e, c.kind = .expr e → (h.fns c.id).isSome
  have hinit : Tied i a.cfg info ks I P Inv s' s' := by
    refine ⟨hord, ⟨(startSolve (a.withObjectives ks) w.model w.heap).2.2, ?_, ?_⟩, rfl, .refl _ _ _, ?_, ?_, ?_, ?_⟩
    · rw [hs', hs.eq, ← hinfo]; simp [a]
    · rw [hs', hs.eq, ← hinfo]; simp [a]
    · intro x c hx e he
      have := (hnow x c hx).2 e he
      rw [hs', hs.eq]
      simp only
      rw [this]; rfl
    · rintro id (⟨x, c, hc, rfl⟩ | ⟨k, hk, rfl⟩)
      · rcases hmem x c hc with hc' | ⟨k, hk, rfl⟩
        · have := (effective_known ht i hc').lt; omega
        · have := (List.getElem?_eq_some_iff.1 (hnew k hk).2.1).1
          rw [hord.ncons, hs']; exact this
      · have := (List.getElem?_eq_some_iff.1 (hnew k hk).2.1).1
        rw [hord.ncons, hs']; exact this
    · rintro p ⟨k, hk, hp | hp⟩
      · exact Nat.lt_of_lt_of_le (hobj _ (hkobj k hk) p hp) hnp
      · rw [hs']; exact ((hnew k hk).2.2.2 p hp).2
    · intro j hj it hit k hk
      rw [hs', hs.eq] at hit
      simp only [if_neg hj] at hit
      obtain ⟨h1, h2, h3⟩ := ht.its j it hit k hk
      have hlt := (List.getElem?_eq_some_iff.1 h2).1
      refine ⟨?_, ?_⟩
      · rintro (⟨x, c, hc, hid⟩ | ⟨k', hk', hid⟩)
        · rcases hmem x c hc with hc' | ⟨k', hk', rfl⟩
          · have := effective_known ht i hc'
            unfold ObjectOf at this
            rw [hid, h2] at this
            cases this
          · have := (hnew k' hk').2.2.1; omega
        · have := (hnew k' hk').2.2.1; omega
      · intro p hp
        have h5 := hown j it hit k hk p hp
        rintro ⟨k', hk', hq | hq⟩
        · exact h5 _ (hkobj k' hk') hq
        · have := ((hnew k' hk').2.2.2 p hq).1; have := h3 p hp; omega
  have := isolated calls (i := i) (cfg := a.cfg) (info := info) (ks := ks) (I := I) (P := P) (Inv := Inv)
    (K := fun t => ∀ j, .next j ∈ after → t.its j ≠ none) after ?_ ?_ ?_ ?_ ?_ ?_ s' s' hinit ?_
  · obtain ⟨g, hg, hg'⟩ := this.it
    exact ⟨hg.trans hg'.symm, this.outs⟩
  · rintro t op hop ho hk _ j hj
    by_cases h1 : ∃ p v, op = .setParam p v
    · obtain ⟨p, v, rfl⟩ := h1; exact hk j hj
    by_cases h2 : ∃ j, op = .next j
    · obtain ⟨j', rfl⟩ := h2
      cases hj' : t.its j' with
      | none => exact absurd hj' (hk j' hop)
      | some it =>
        rw [step_go hj']
        simp only
        split
        · simp
        · exact hk j hj
    · push Not at h1 h2
      rw [(quiet_step calls ho op h1 h2).its]; exact hk j hj
  · intro p v hop
    obtain ⟨h2, h3⟩ := hpar p v hop
    rintro ⟨k', hk', hq | hq⟩
    · exact h2 _ (hkobj k' hk') hq
    · have := (hnew k' hk').2.2.2 p hq
      rw [← hs'] at this
      omega
  · intro A t j hop hj _ hk
    exact absurd hj (hk j hop)
  · intro A T hag hI
    refine candidates_congr (fun x c hc σ => ?_)
    have h1 := hag.1 _ (.inl ⟨x, c, hc, rfl⟩)
    have h2 := hI x c hc
    unfold Constraint.evaluate
    cases hkind : c.kind with
    | const b => rfl
    | allDiff ns => rfl
    | expr e =>
      obtain ⟨f, hf⟩ := Option.isSome_iff_exists.1 (h2 e hkind)
      simp only [h1, hf]
  · intro h σ h' hI hsol x c hx e he
    exact onSolution_some hsol (hI x c hx e he)
  · intro k hk
    exact ⟨(hnew k hk).1, .inr ⟨k, hk, rfl⟩, fun p hp => ⟨k, hk, proper_params (hnew k hk).1 p hp⟩, fun p hp => ⟨k, hk, .inl hp⟩⟩
  · intro j hj
    rw [hs', hs.eq]
    simp only
    rcases hst j hj with rfl | hj
    · simp
    · split
      · simp
      · exact hj

/-- The full claim: an iteration of `solve` of a solver that compiles keeps the parameter values of its start, whatever the program does then. -/
def C60 : Prop := ∀ (calls : Nat → SolveCall) (before after : List Op) (i : Nat),
  let s := Session.init.run calls before
  ∀ a, AsCalled (calls i) (s.solvers (calls i).solver) s.objs a →
  let m := s.models (calls i).model
  s.its i = none → (calls i).objectives = [] → a.solver.compile = true →
  AsAlone a m s.heap (after.countP (Op.steps i)) i (s.run calls (.next i :: after))

/-- C60 if no other iteration is started while this one is in progress; those that are in progress may be advanced. Missing: the start of another
iteration compiles the constraints that both use with the values of that moment (`C60_refuted`); without compilation the current values are used
(`C60_refuted_interpreted`). -/
theorem C60_partial (calls : Nat → SolveCall) (before after : List Op) (i : Nat) :
    let s := Session.init.run calls before
    ∀ a, AsCalled (calls i) (s.solvers (calls i).solver) s.objs a →
    let m := s.models (calls i).model
    s.its i = none → (calls i).objectives = [] → a.solver.compile = true → (∀ j, .next j ∈ after → j = i ∨ s.its j ≠ none) →
    AsAlone a m s.heap (after.countP (Op.steps i)) i (s.run calls (.next i :: after)) := by
  intro s a hcall m hi hob hcomp hst
  obtain rfl := (asCalled_iff _ _ _ a).1 hcall
  have ho : Orderly s := orderly_run calls before orderly_init
  obtain ⟨⟨h1, h2⟩, h3⟩ := alone_solve calls ho hi hob (after.countP (Op.steps i))
  have := run_kept calls before after i hi hcomp (by rw [hob]; simp) (fun j it hj k hk p hp => by rw [hob]; simp)
    (fun p v hp => ⟨by rw [hob]; simp, by
      rw [show (Session.init.run calls before) = s from rfl, start_nparams ho hi hob]; exact Nat.lt_or_ge p s.heap.nparams⟩) hst
  exact ⟨this.1.trans h1, this.2.trans h2⟩

/-! ## A concrete program -/

/-- `x, y in (0, 1, 2)`, a parameter `p = 2`, the constraint `x + y == p`. -/
def exProgram : List Op :=
  [.addInt 0 [0, 1, 2] (some "x"), .addInt 0 [0, 1, 2] (some "y"), .addParam 0 2 (some "p"),
   .addCon 0 (.expr (.bin .eq (.bin .add (.var "x") (.var "y")) (.param 0 "p")))]

/-- Two iterations of one solver. -/
def exCalls : Nat → SolveCall := fun _ => { solver := 0, model := 0 }

-- after the first solution `x != y` is added to the model, the limit of the solver is set to 1, and another iteration is run to its end: the first
-- goes on as if nothing had happened, the second obeys both
example : let s := Session.init.run exCalls (exProgram ++ steps 0 4 ++
    [.addCon 0 (.expr (.bin .ne (.var "x") (.var "y"))), .config 0 { limit := some 1 }] ++ steps 1 20 ++ steps 0 20)
    s.outs 0 = [[("y", 0), ("x", 2)], [("y", 1), ("x", 1)], [("y", 2), ("x", 0)]] ∧ s.outs 1 = [[("y", 0), ("x", 2)]] := by decide

-- the hypotheses of `C59_isolated` hold for it
example : let s := Session.init.run exCalls exProgram
    s.its 0 = none ∧ (s.solvers 0).compile = true ∧ (s.models 0).constraints.length = 1 := ⟨rfl, rfl, rfl⟩

-- an assignment alone does not disturb it
example : (Session.init.run exCalls (exProgram ++ steps 0 4 ++ [.setParam 0 4] ++ steps 0 20)).outs 0 =
    [[("y", 0), ("x", 2)], [("y", 1), ("x", 1)], [("y", 2), ("x", 0)]] := by decide

/-- After the first solution the parameter is assigned and another iteration started: the first goes on with the new value. -/
theorem C60_refuted : ¬ C60 := by
  intro hC
  have h := (hC exCalls exProgram (steps 0 3 ++ [.setParam 0 4, .next 1] ++ steps 0 20) 0 _ ((asCalled_iff _ _ _ _).2 rfl) rfl rfl rfl).outs
  revert h
  decide

/-- Without compilation the assignment is seen at once. -/
theorem C60_refuted_interpreted :
    let before := exProgram ++ [.config 0 { compile := false }]
    (Session.init.run exCalls (before ++ steps 0 30)).outs 0 = [[("y", 0), ("x", 2)], [("y", 1), ("x", 1)], [("y", 2), ("x", 0)]] ∧
    (Session.init.run exCalls (before ++ steps 0 4 ++ [.setParam 0 4] ++ steps 0 30)).outs 0 = [[("y", 0), ("x", 2)], [("y", 2), ("x", 2)]] := by
  decide

end Satisfy.Props
