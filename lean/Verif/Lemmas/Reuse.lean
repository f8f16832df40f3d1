import Verif.Lemmas.Build
/-! Comparing runs of the solver on different heaps. -/

namespace Satisfy

/-- Every variable of the constraint has a value from its domain. -/
def BoundIn (m : Model) (c : Constraint) (σ : Subst) : Prop :=
  ∀ x ∈ c.vars, ∃ v d, σ.get? x = some v ∧ m.domain? x = some d ∧ v ∈ d

/-- The constraint evaluates the same in both heaps, as far as the solver can tell. -/
def EvalEq (m : Model) (H H' : Heap) (c : Constraint) : Prop :=
  ∀ σ, BoundIn m c σ → c.evaluate H σ = c.evaluate H' σ

/-- All values are from the domains. -/
def InDom (m : Model) (σ : Subst) : Prop := ∀ x v, σ.get? x = some v → ∃ d, m.domain? x = some d ∧ v ∈ d

theorem inDom_set {m : Model} {σ : Subst} (h : InDom m σ) {x : Name} {v : Int} (hv : ∃ d, m.domain? x = some d ∧ v ∈ d) :
    InDom m (σ.set x v) := by
  intro y w hy
  rw [Dict.get?_set] at hy
  split at hy
  · rename_i he; subst he; cases hy; exact hv
  · exact h y w hy

theorem unsatisfied_on {m : Model} {H H' : Heap} {c : Constraint} (he : EvalEq m H H' c) {σ : Subst} (hσ : InDom m σ) :
    c.unsatisfied H σ = c.unsatisfied H' σ := by
  unfold Constraint.unsatisfied
  split
  · rfl
  · rename_i hb
    rw [he σ ?_]
    intro x hx
    have : σ.has x = true := by
      by_contra hn
      exact hb (List.any_eq_true.2 ⟨x, hx, by simpa using hn⟩)
    obtain ⟨v, hv⟩ := Dict.get?_isSome_of_mem_keys ((Dict.has_iff _ _).1 this)
    obtain ⟨d, hd, hvd⟩ := hσ x v hv
    exact ⟨v, d, hv, hd, hvd⟩

theorem noneUnsat_on {m : Model} {H H' : Heap} {cs : List Constraint} (he : ∀ c ∈ cs, EvalEq m H H' c) {σ : Subst} (hσ : InDom m σ) :
    noneUnsat H σ cs = noneUnsat H' σ cs := by
  induction cs with
  | nil => rfl
  | cons c cs ih =>
    simp only [noneUnsat]
    rw [unsatisfied_on (he c (by simp)) hσ, ih (fun c hc => he c (by simp [hc]))]

/-- The domains in the `ModelInfo` are parts of the declared ones. -/
def DomsIn (m : Model) (info : Info) : Prop :=
  ∀ x d, info.vars.get? x = some d → ∃ d0, m.domain? x = some d0 ∧ ∀ v ∈ d, v ∈ d0

theorem candidates_on {m : Model} {info : Info} (hd : DomsIn m info) {H H' : Heap}
    (he : ∀ x, ∀ c ∈ info.cons x, EvalEq m H H' c) (x : Name) {σ : Subst} (hσ : InDom m σ) :
    candidates info H x σ = candidates info H' x σ := by
  unfold candidates
  cases hx : info.vars.get? x with
  | none => rfl
  | some d =>
    obtain ⟨d0, h0, hsub⟩ := hd x d hx
    simp only
    clear hx
    induction d with
    | nil => rfl
    | cons v d ih =>
      have ih := ih (fun w hw => hsub w (by simp [hw]))
      have hσ' : InDom m (σ.set x v) := inDom_set hσ ⟨d0, h0, hsub v (by simp)⟩
      simp only [candLoop, acceptable, ih]
      rw [noneUnsat_on (he x) hσ']

theorem setupOne_doms {m : Model} {comp : Bool} {c : Constraint} {h h' : Heap} {info info' : Info} (hd : DomsIn m info)
    (hs : setupOne comp c h info = (h', .ok info')) : DomsIn m info' := by
  unfold setupOne at hs
  simp only at hs
  split at hs
  · simp only [Prod.mk.injEq, Except.ok.injEq] at hs
    rw [← hs.2]; exact hd
  · split at hs
    · split at hs
      · rename_i x _ d hx
        split at hs
        · rename_i d' hf
          simp only [Prod.mk.injEq, Except.ok.injEq] at hs
          rw [← hs.2]
          intro y dy hy
          simp only at hy
          rw [Dict.get?_set] at hy
          split at hy
          · rename_i he; subst he; cases hy
            obtain ⟨d0, h1, h2⟩ := hd _ _ hx
            exact ⟨d0, h1, fun v hv => h2 v ((filterDomain_ok hf).1.subset hv)⟩
          · exact hd y dy hy
        · simp at hs
      · simp only [Prod.mk.injEq, Except.ok.injEq] at hs
        rw [← hs.2]; exact hd
    · simp only [Prod.mk.injEq, Except.ok.injEq] at hs
      rw [← hs.2]; exact hd

theorem setupLoop_doms {m : Model} {comp : Bool} {cs : List Constraint} {h h' : Heap} {info info' : Info} (hd : DomsIn m info)
    (hs : setupLoop comp cs h info = (h', .ok info')) : DomsIn m info' := by
  induction cs generalizing h info with
  | nil => simp only [setupLoop, Prod.mk.injEq, Except.ok.injEq] at hs; rw [← hs.2]; exact hd
  | cons c cs ih =>
    rw [setupLoop] at hs
    cases h1 : setupOne comp c h info with
    | mk h1' r =>
      rw [h1] at hs
      cases r with
      | error e => simp at hs
      | ok info1 => exact ih (setupOne_doms hd h1) hs

theorem init_doms {m : Model} (hn : m.vars.keys.Nodup) : DomsIn m (.init m) := by
  intro x d hx
  exact ⟨d, by rw [← pureVars_get? hn]; exact hx, fun v hv => hv⟩

theorem setup_doms {m : Model} (hn : m.vars.keys.Nodup) {comp : Bool} {adds : List Constraint} {h h' : Heap} {info : Info}
    (hs : setup comp m adds h = (h', .ok info)) : DomsIn m info := by
  unfold setup at hs
  cases hl : setupLoop comp (m.constraints ++ adds) h (.init m) with
  | mk h1 r =>
    rw [hl] at hs
    cases r with
    | error e => simp at hs
    | ok info1 =>
      simp only at hs
      split at hs
      · simp at hs
      · simp only [Prod.mk.injEq, Except.ok.injEq] at hs
        rw [← hs.2]; exact setupLoop_doms (init_doms hn) hl

theorem filterDomain_on {m : Model} {h h' : Heap} {c : Constraint} (he : EvalEq m h h' c) {x : Name} (hx : c.vars = [x]) {d d0 : List Int}
    (h0 : m.domain? x = some d0) (hsub : ∀ v ∈ d, v ∈ d0) : filterDomain h c x d = filterDomain h' c x d := by
  induction d with
  | nil => rfl
  | cons v d ih =>
    simp only [filterDomain, ih (fun w hw => hsub w (by simp [hw]))]
    rw [he [(x, v)]]
    intro y hy
    rw [hx] at hy
    simp at hy; subst hy
    exact ⟨v, d0, by simp [Dict.get?], h0, hsub v (by simp)⟩

theorem setupOne_on {m : Model} {comp comp' : Bool} {c : Constraint} {h h' : Heap} {info : Info} (hd : DomsIn m info)
    (he : EvalEq m (compileAll comp [c] h) (compileAll comp' [c] h') c) :
    (setupOne comp c h info).2 = (setupOne comp' c h' info).2 := by
  have hcomp : ∀ comp h, (if comp = true then c.compile h else h) = compileAll comp [c] h := by
    intro comp h; cases comp <;> rfl
  unfold setupOne
  simp only [hcomp]
  split
  · rfl
  · split
    · rename_i x hx
      split
      · rename_i d hdx
        obtain ⟨d0, h0, hsub⟩ := hd x d hdx
        rw [filterDomain_on he hx h0 hsub]
        split <;> rfl
      · rfl
    · rfl

theorem setupLoop_on {m : Model} {comp comp' : Bool} (rest : List Constraint) : ∀ (pre : List Constraint) {h h' : Heap} (info : Info),
    DomsIn m info →
    (∀ p c q, rest = p ++ c :: q → EvalEq m (compileAll comp (pre ++ p ++ [c]) h) (compileAll comp' (pre ++ p ++ [c]) h') c) →
    (setupLoop comp rest (compileAll comp pre h) info).2 = (setupLoop comp' rest (compileAll comp' pre h') info).2 := by
  induction rest with
  | nil => intro pre h h' info _ _; rfl
  | cons c rest ih =>
    intro pre h h' info hd he
    rw [setupLoop, setupLoop]
    have h1 := setupOne_on (comp := comp) (comp' := comp') (c := c) (h := compileAll comp pre h)
      (h' := compileAll comp' pre h') hd (by
        have := he [] c rest rfl
        simpa [compileAll_append] using this)
    have e1 := setupOne_heap comp c (compileAll comp pre h) info
    have e2 := setupOne_heap comp' c (compileAll comp' pre h') info
    rw [← compileAll_append] at e1 e2
    cases hs : setupOne comp c (compileAll comp pre h) info with
    | mk a r =>
      cases hs' : setupOne comp' c (compileAll comp' pre h') info with
      | mk a' r' =>
        rw [hs] at h1 e1; rw [hs'] at h1 e2
        simp only at h1 e1 e2
        subst h1
        cases r with
        | error e => rfl
        | ok info1 =>
          simp only
          rw [e1, e2]
          refine ih (pre ++ [c]) info1 (setupOne_doms hd hs) ?_
          intro p c' q hq
          have := he (c :: p) c' q (by simp [hq])
          simpa using this

theorem setup_on {comp comp' : Bool} {m : Model} (hn : m.vars.keys.Nodup) {adds : List Constraint} {h h' : Heap}
    (he : ∀ p c q, m.constraints ++ adds = p ++ c :: q → EvalEq m (compileAll comp (p ++ [c]) h) (compileAll comp' (p ++ [c]) h') c) :
    (setup comp m adds h).2 = (setup comp' m adds h').2 := by
  have := setupLoop_on (m := m) (comp := comp) (comp' := comp') (m.constraints ++ adds) [] (h := h) (h' := h') (.init m) (init_doms hn)
    (by simpa using he)
  have e1 : ∀ comp h, compileAll comp [] h = h := by intro comp h; cases comp <;> rfl
  rw [e1, e1] at this
  unfold setup
  cases hs : setupLoop comp (m.constraints ++ adds) h (.init m) with
  | mk a r =>
    cases hs' : setupLoop comp' (m.constraints ++ adds) h' (.init m) with
    | mk a' r' =>
      rw [hs, hs'] at this
      simp only at this
      subst this
      cases r with
      | error e => rfl
      | ok info =>
        simp only
        split <;> rfl

/-! The search only asks about substitutions with values from the domains. -/

structure SearchIn (m : Model) (s : Search) : Prop where
  stack : ∀ p ∈ s.stack, InDom m p.2
  doms : ∀ x vs, (x, vs) ∈ s.domains → ∀ v ∈ vs, ∃ d, m.domain? x = some d ∧ v ∈ d

theorem Dict.mem_set {α} {d : Dict α} {k : Name} {v : α} {p : Name × α} (h : p ∈ d.set k v) : p ∈ d ∨ p = (k, v) := by
  induction d with
  | nil => simp [Dict.set] at h; exact .inr h
  | cons q d ih =>
    simp only [Dict.set] at h
    split at h
    · rename_i he
      rcases List.mem_cons.1 h with h | h
      · exact .inr (by first | exact h | (rw [h]; rw [he]))
      · exact .inl (by simp [h])
    · rcases List.mem_cons.1 h with h | h
      · exact .inl (by simp [h])
      · rcases ih h with h | h
        · exact .inl (by simp [h])
        · exact .inr h

theorem Dict.mem_erase {α} {d : Dict α} {k : Name} {p : Name × α} (h : p ∈ d.erase k) : p ∈ d := by
  induction d with
  | nil => simp [Dict.erase] at h
  | cons q d ih =>
    simp only [Dict.erase] at h
    split at h
    · simp [h]
    · rcases List.mem_cons.1 h with h | h
      · simp [h]
      · simp [ih h]

theorem candLoop_mem {h : Heap} {info : Info} {x : Name} {σ : Subst} {d vs : List Int} (hc : candLoop h info x σ d = .ok vs) :
    ∀ v ∈ vs, v ∈ d := by
  induction d generalizing vs with
  | nil => simp [candLoop] at hc; subst hc; simp
  | cons w d ih =>
    simp only [candLoop] at hc
    cases ha : acceptable h info x σ w with
    | error e => simp [ha, Bind.bind, Except.bind] at hc
    | ok b =>
      cases hr : candLoop h info x σ d with
      | error e => simp [ha, hr, Bind.bind, Except.bind] at hc
      | ok rest =>
        simp only [ha, hr, Bind.bind, Except.bind, pure, Except.pure, Except.ok.injEq] at hc
        subst hc
        intro v hv
        split at hv
        · rcases List.mem_cons.1 hv with rfl | hv
          · simp
          · simp [ih hr v hv]
        · simp [ih hr v hv]

theorem candidates_in {m : Model} {info : Info} (hd : DomsIn m info) {h : Heap} {x : Name} {σ : Subst} {vs : List Int}
    (hc : candidates info h x σ = .ok vs) : ∀ v ∈ vs, ∃ d, m.domain? x = some d ∧ v ∈ d := by
  intro v hv
  unfold candidates at hc
  split at hc
  · cases hc
  · rename_i d hx
    obtain ⟨d0, h0, hsub⟩ := hd x d hx
    exact ⟨d0, h0, hsub v (candLoop_mem hc v hv)⟩

theorem take_in {m : Model} {s : Search} (hs : SearchIn m s) {x : Name} {rest : List Name} {σ : Subst} (hσ : InDom m σ) {v : Int} {vs : List Int}
    (hv : ∀ w ∈ v :: vs, ∃ d, m.domain? x = some d ∧ w ∈ d) :
    (∀ s', s.take x rest σ v vs = .silent s' → SearchIn m s') ∧ (∀ τ s', s.take x rest σ v vs = .yield τ s' → SearchIn m s') := by
  have hdom : ∀ y ws, (y, ws) ∈ s.domains.set x vs → ∀ w ∈ ws, ∃ d, m.domain? y = some d ∧ w ∈ d := by
    intro y ws hy
    rcases Dict.mem_set hy with hy | hy
    · exact hs.doms y ws hy
    · cases hy; exact fun w hw => hv w (by simp [hw])
  cases rest with
  | nil =>
    simp only [Search.take]
    refine ⟨by simp, ?_⟩
    intro τ s' h; simp at h; obtain ⟨_, rfl⟩ := h
    exact ⟨hs.stack, hdom⟩
  | cons y ys =>
    simp only [Search.take]
    refine ⟨?_, by simp⟩
    intro s' h; simp at h; subst h
    refine ⟨?_, hdom⟩
    intro p hp
    rcases List.mem_cons.1 hp with rfl | hp
    · exact inDom_set hσ (hv v (by simp))
    · exact hs.stack p hp

theorem step_in {m : Model} {s : Search} (hs : SearchIn m s) {c c' : Name → Subst → Res (List Int)}
    (hc : ∀ x σ vs, c x σ = .ok vs → ∀ v ∈ vs, ∃ d, m.domain? x = some d ∧ v ∈ d)
    (he : ∀ x σ, InDom m σ → c x σ = c' x σ) :
    s.step c = s.step c' ∧ (∀ s', s.step c = .silent s' → SearchIn m s') ∧ (∀ τ s', s.step c = .yield τ s' → SearchIn m s') := by
  unfold Search.step
  cases hst : s.stack with
  | nil => simp
  | cons p K =>
    obtain ⟨us, σ⟩ := p
    have hσ : InDom m σ := hs.stack (us, σ) (by rw [hst]; simp)
    have hK : ∀ p ∈ K, InDom m p.2 := fun p hp => hs.stack p (by rw [hst]; simp [hp])
    cases us with
    | nil => simp
    | cons x rest =>
      simp only
      rw [he x σ hσ]
      refine ⟨rfl, ?_⟩
      cases hg : s.domains.get? x with
      | none =>
        simp only
        cases hcx : c' x σ with
        | error e => simp
        | ok vs =>
          cases vs with
          | nil =>
            simp only
            refine ⟨?_, by simp⟩
            intro s' h; simp at h; subst h
            exact ⟨hK, hs.doms⟩
          | cons v vs =>
            simp only
            exact take_in hs hσ (hc x σ _ (by rw [he x σ hσ]; exact hcx))
      | some vs =>
        cases vs with
        | nil =>
          simp only
          refine ⟨?_, by simp⟩
          intro s' h; simp at h; subst h
          refine ⟨hK, ?_⟩
          intro y ws hy
          exact hs.doms y ws (Dict.mem_erase hy)
        | cons v vs => exact take_in hs hσ (hs.doms x _ (Dict.mem_of_get? hg))

theorem loop_in {m : Model} {cfg : RunCfg} {g : Gen} (hs : SearchIn m g.search) {c c' : Name → Subst → Res (List Int)}
    (hc : ∀ x σ vs, c x σ = .ok vs → ∀ v ∈ vs, ∃ d, m.domain? x = some d ∧ v ∈ d)
    (he : ∀ x σ, InDom m σ → c x σ = c' x σ) :
    g.loop cfg c = g.loop cfg c' ∧ SearchIn m (g.loop cfg c).search := by
  obtain ⟨h1, h2, h3⟩ := step_in hs hc he
  refine ⟨?_, ?_⟩
  · unfold Gen.loop
    split
    · rfl
    · split
      · rfl
      · have : ∀ g' : Gen, g'.search = g.search → g'.search.step c = g'.search.step c' := by intro g' hg'; rw [hg', h1]
        simp only
        rw [this _ (by split <;> rfl)]
  · by_cases hto : g.timedOut cfg = true
    · by_cases hne : g.search.stack.isEmpty = true
      · simpa [Gen.loop, hne] using hs
      · rw [loop_timeout cfg (by simpa using hne) hto]; exact hs
    · obtain ⟨t, hl⟩ := loop_nonempty cfg (c := c) (g := g) (by simpa using hto)
      rw [hl]
      cases hst : g.search.step c with
      | done => exact hs
      | raised e => exact hs
      | silent s' => exact h2 s' hst
      | yield τ s' =>
        simp only
        cases g.timer.doStop (cfg.clock t) with
        | ok tm => exact h3 τ s' hst
        | error e => exact hs

theorem resume_search (cfg : RunCfg) (g : Gen) : (g.resume cfg).search = g.search := by
  unfold Gen.resume Gen.withTimer
  simp only
  split <;> split <;> split <;> rfl

theorem sysRun_on {m : Model} (cfg : RunCfg) {cand cand' : Heap → Name → Subst → Res (List Int)} {s s' : Heap}
    (hc : ∀ x σ vs, cand s x σ = .ok vs → ∀ v ∈ vs, ∃ d, m.domain? x = some d ∧ v ∈ d)
    (he : ∀ x σ, InDom m σ → cand s x σ = cand' s' x σ) (n : Nat) (g : Gen) (hg : SearchIn m g.search) :
    (sysRun cfg cand passive n g s).1 = (sysRun cfg cand' passive n g s').1 ∧
    (sysRun cfg cand passive n g s).2.1 = (sysRun cfg cand' passive n g s').2.1 := by
  induction n generalizing g with
  | zero => exact ⟨rfl, rfl⟩
  | succ n ih =>
    rw [sysRun_succ, sysRun_succ]
    have h1 : (sysStep cfg cand passive g s).2 = s := by
      unfold sysStep passive; cases g.phase <;> rfl
    have h1' : (sysStep cfg cand' passive g s').2 = s' := by
      unfold sysStep passive; cases g.phase <;> rfl
    obtain ⟨l1, l2⟩ := loop_in (cfg := cfg) hg hc he
    have h2 : (sysStep cfg cand passive g s).1 = (sysStep cfg cand' passive g s').1 := by
      unfold sysStep passive; cases g.phase <;> simp [l1]
    have h3 : SearchIn m (sysStep cfg cand passive g s).1.search := by
      unfold sysStep passive
      cases g.phase with
      | running => exact l2
      | suspended σ => simp only; rw [resume_search]; exact hg
      | finished => exact hg
      | raised e => exact hg
    rw [h2] at h3
    simp only [h1, h1', h2]
    exact ⟨by rw [(ih _ h3).1], (ih _ h3).2⟩

/-- **Two runs on different heaps** hand out the same, in the same way, if every constraint evaluates the
same in both, on values from the domains. -/
theorem solveRun_on {a a' : SolveArgs} {m : Model} (hn : m.vars.keys.Nodup) {h h' : Heap} (hadds : a.adds = a'.adds)
    (hpol : a.solver.policy = a'.solver.policy) (hsh : a.shuffle = a'.shuffle) (hcfg : a.cfg = a'.cfg)
    (he1 : ∀ p c q, m.constraints ++ a.adds = p ++ c :: q →
      EvalEq m (compileAll a.solver.compile (p ++ [c]) h) (compileAll a'.solver.compile (p ++ [c]) h') c)
    (he2 : ∀ c ∈ m.constraints ++ a.adds,
      EvalEq m (compileAll a.solver.compile (m.constraints ++ a.adds) h) (compileAll a'.solver.compile (m.constraints ++ a.adds) h') c) :
    (startSolve a m h).2 = (startSolve a' m h').2 ∧
    ∀ n, (solveRun a m passive n h).1 = (solveRun a' m passive n h').1 ∧ (solveRun a m passive n h).2.1 = (solveRun a' m passive n h').2.1 := by
  have hset := setup_on hn he1
  have key : (startSolve a m h).2 = (startSolve a' m h').2 ∧ SearchIn m (startSolve a m h).2.2.search ∧ DomsIn m (startSolve a m h).2.1 ∧
      ∀ x σ, InDom m σ → candidates (startSolve a m h).2.1 (startSolve a m h).1 x σ =
        candidates (startSolve a' m h').2.1 (startSolve a' m h').1 x σ := by
    have hclock : a.clock = a'.clock := by
      have := hcfg; simp only [SolveArgs.cfg, RunCfg.mk.injEq] at this; exact this.2.2
    have hidle : ∀ ph, SearchIn m (Gen.idle ph).search := fun ph => ⟨by simp [Gen.idle], by simp [Gen.idle]⟩
    unfold startSolve
    by_cases hsol : m.solvable = true
    · simp only [hsol, Bool.not_true, Bool.false_eq_true, if_false]
      rw [← hadds]
      cases hs : setup a.solver.compile m a.adds h with
      | mk H r =>
        cases hs' : setup a'.solver.compile m a.adds h' with
        | mk H' r' =>
          rw [hs, hs'] at hset
          simp only at hset
          subst hset
          cases r with
          | error e =>
            exact ⟨rfl, hidle _, init_doms hn, fun x σ hσ => candidates_on (init_doms hn) (by simp [Info.init]) x hσ⟩
          | ok info =>
            have hc : ∀ x σ, InDom m σ → candidates info H x σ = candidates info H' x σ := by
              intro x σ hσ
              refine candidates_on (setup_doms hn hs) (fun x c hc => ?_) x hσ
              rw [setup_ok_heap hs, setup_ok_heap hs']
              exact he2 c (setup_cons hs x c hc)
            simp only
            rw [hpol, hsh, hclock]
            cases orderVars a'.solver.policy a'.shuffle m info with
            | nil => exact ⟨rfl, hidle _, setup_doms hn hs, hc⟩
            | cons x xs =>
              refine ⟨rfl, ?_, setup_doms hn hs, hc⟩
              refine ⟨?_, ?_⟩
              · intro p hp
                simp [Gen.withTimer, Timer.doStart, Timer.new, Timer.running] at hp
                subst hp
                intro y v hy; simp [Dict.get?] at hy
              · intro y v hy; simp [Gen.withTimer, Timer.doStart, Timer.new, Timer.running, Dict.get?] at hy
    · have hsol : m.solvable = false := by simpa using hsol
      simp only [hsol, Bool.not_false, if_true]
      exact ⟨by simp, hidle _, init_doms hn, fun x σ hσ => candidates_on (init_doms hn) (by simp [Info.init]) x hσ⟩
  obtain ⟨k1, k2, k3, k4⟩ := key
  refine ⟨k1, fun n => ?_⟩
  rw [solveRun_eq, solveRun_eq, hcfg]
  have := sysRun_on (m := m) a'.cfg (cand := candidates (startSolve a m h).2.1) (cand' := candidates (startSolve a' m h').2.1)
    (fun x σ vs hvs => candidates_in k3 hvs) k4 n (startSolve a m h).2.2 k2
  rw [k1] at this ⊢
  exact this

/-! ## What a run depends on -/

theorem sameIds_sub {cs cs' : List Constraint} (h : SameIds cs) (hs : ∀ c ∈ cs', c ∈ cs) : SameIds cs' :=
  fun c hc c' hc' => h c (hs c hc) c' (hs c' hc')

/-- With compilation: only on the parameter values. -/
theorem solveRun_compiled {a : SolveArgs} {m : Model} (hn : m.vars.keys.Nodup) {h h' : Heap} (hcomp : a.solver.compile = true)
    (hids : SameIds (m.constraints ++ a.adds)) (hp : h.params = h'.params) :
    (startSolve a m h).2 = (startSolve a m h').2 ∧
    ∀ n, (solveRun a m passive n h).1 = (solveRun a m passive n h').1 ∧ (solveRun a m passive n h).2.1 = (solveRun a m passive n h').2.1 := by
  refine solveRun_on hn rfl rfl rfl rfl ?_ ?_
  · intro p c q heq σ _
    rw [hcomp]
    have hs : SameIds (p ++ [c]) := sameIds_sub hids (by rw [heq]; intro c' hc'; simp at hc' ⊢; rcases hc' with h | h <;> simp [h])
    exact evaluate_of_now (compileAll_now hs c (by simp)) (compileAll_now hs c (by simp)) (by simp [hp]) σ
  · intro c hc σ _
    rw [hcomp]
    exact evaluate_of_now (compileAll_now hids c hc) (compileAll_now hids c hc) (by simp [hp]) σ

/-- Without compilation: on the parameter values and on what was compiled before. -/
theorem solveRun_interpreted {a : SolveArgs} {m : Model} (hn : m.vars.keys.Nodup) {h h' : Heap} (hcomp : a.solver.compile = false)
    (hf : ∀ c ∈ m.constraints ++ a.adds, h.fns c.id = h'.fns c.id) (hp : h.params = h'.params) :
    (startSolve a m h).2 = (startSolve a m h').2 ∧
    ∀ n, (solveRun a m passive n h).1 = (solveRun a m passive n h').1 ∧ (solveRun a m passive n h).2.1 = (solveRun a m passive n h').2.1 := by
  refine solveRun_on hn rfl rfl rfl rfl ?_ ?_
  · intro p c q heq σ _
    rw [hcomp]
    exact evaluate_of_same (hf c (by rw [heq]; simp)) hp σ
  · intro c hc σ _
    rw [hcomp]
    exact evaluate_of_same (hf c hc) hp σ

end Satisfy
