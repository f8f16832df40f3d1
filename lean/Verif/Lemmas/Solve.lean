import Verif.Lemmas.Setup
/-! From `solve` to the recursive search. -/

namespace Satisfy

/-! ## Orders -/

theorem insertSorted_perm {α} (lt : α → α → Bool) (x : α) (l : List α) : (insertSorted lt x l).Perm (x :: l) := by
  induction l with
  | nil => exact .refl _
  | cons y l ih =>
    simp only [insertSorted]
    split
    · exact (List.Perm.cons y ih).trans (List.Perm.swap x y l)
    · exact .refl _

theorem pySorted_perm {α} (lt : α → α → Bool) (l : List α) : (pySorted lt l).Perm l := by
  induction l with
  | nil => exact .refl _
  | cons x l ih => exact (insertSorted_perm lt x _).trans (List.Perm.cons x ih)

theorem orderVars_perm (p : Policy) {shuffle : List Name → List Name} (hs : ∀ l, (shuffle l).Perm l) (m : Model) (info : Info) :
    (orderVars p shuffle m info).Perm info.vars.keys := by
  cases p <;> simp only [orderVars]
  · exact .refl _
  · exact List.reverse_perm _
  · exact hs _
  · exact (List.reverse_perm _).trans (pySorted_perm _ _)
  all_goals exact pySorted_perm _ _

/-! ## Setup without assumptions -/

theorem setupOne_keys {comp : Bool} {c : Constraint} {h h' : Heap} {info info' : Info}
    (hs : setupOne comp c h info = (h', .ok info')) : info'.vars.keys = info.vars.keys := by
  unfold setupOne at hs
  simp only at hs
  split at hs
  · simp only [Prod.mk.injEq, Except.ok.injEq] at hs
    rw [← hs.2]
  · split at hs
    · split at hs
      · rename_i hd
        split at hs
        · simp only [Prod.mk.injEq, Except.ok.injEq] at hs
          rw [← hs.2]
          exact Dict.keys_set_of_mem (Dict.mem_keys_of_get? hd)
        · simp at hs
      · simp only [Prod.mk.injEq, Except.ok.injEq] at hs
        rw [← hs.2]
    · simp only [Prod.mk.injEq, Except.ok.injEq] at hs
      rw [← hs.2]

theorem setupOne_heap (comp : Bool) (c : Constraint) (h : Heap) (info : Info) :
    (setupOne comp c h info).1 = compileAll comp [c] h := by
  have hcomp : (if comp = true then c.compile h else h) = compileAll comp [c] h := by
    cases comp <;> rfl
  unfold setupOne
  simp only [hcomp]
  split
  · rfl
  · split
    · split
      · split <;> rfl
      · rfl
    · rfl

theorem setupLoop_keys {comp : Bool} {cs : List Constraint} {h h' : Heap} {info info' : Info}
    (hs : setupLoop comp cs h info = (h', .ok info')) : info'.vars.keys = info.vars.keys := by
  induction cs generalizing h info with
  | nil => simp only [setupLoop, Prod.mk.injEq, Except.ok.injEq] at hs; rw [hs.2]
  | cons c cs ih =>
    rw [setupLoop] at hs
    cases h1 : setupOne comp c h info with
    | mk h1' r =>
      rw [h1] at hs
      cases r with
      | error e => simp at hs
      | ok info1 => rw [ih hs, setupOne_keys h1]

theorem setupLoop_heap (comp : Bool) (cs : List Constraint) (h : Heap) (info : Info) :
    ∃ pre post, cs = pre ++ post ∧ (setupLoop comp cs h info).1 = compileAll comp pre h := by
  induction cs generalizing h info with
  | nil => exact ⟨[], [], rfl, by cases comp <;> rfl⟩
  | cons c cs ih =>
    rw [setupLoop]
    have hh := setupOne_heap comp c h info
    cases h1 : setupOne comp c h info with
    | mk h1' r =>
      rw [h1] at hh
      simp only at hh
      cases r with
      | error e => exact ⟨[c], cs, rfl, hh⟩
      | ok info1 =>
        obtain ⟨pre, post, he, hp⟩ := ih h1' info1
        refine ⟨c :: pre, post, by simp [he], ?_⟩
        simp only
        rw [hp, hh]
        exact (compileAll_append comp [c] pre h).symm

theorem setup_keys {comp : Bool} {m : Model} {adds : List Constraint} {h h' : Heap} {info : Info}
    (hs : setup comp m adds h = (h', .ok info)) : info.vars.keys = m.pureVars.keys := by
  unfold setup at hs
  cases hl : setupLoop comp (m.constraints ++ adds) h (.init m) with
  | mk h1 r =>
    rw [hl] at hs
    cases r with
    | error e => simp at hs
    | ok info1 =>
      simp only at hs
      split at hs
      · simp at hs
      · simp only [Prod.mk.injEq, Except.ok.injEq] at hs
        rw [← hs.2, setupLoop_keys hl]; rfl

theorem setup_heap (comp : Bool) (m : Model) (adds : List Constraint) (h : Heap) :
    ∃ pre post, m.constraints ++ adds = pre ++ post ∧ (setup comp m adds h).1 = compileAll comp pre h := by
  obtain ⟨pre, post, he, hp⟩ := setupLoop_heap comp (m.constraints ++ adds) h (.init m)
  refine ⟨pre, post, he, ?_⟩
  rw [← hp]
  unfold setup
  cases hl : setupLoop comp (m.constraints ++ adds) h (.init m) with
  | mk h1 r =>
    cases r with
    | error e => rfl
    | ok info1 => simp only; split <;> rfl

theorem startSolve_heap (a : SolveArgs) (m : Model) (h : Heap) :
    ∃ pre post, m.constraints ++ a.adds = pre ++ post ∧ (startSolve a m h).1 = compileAll a.solver.compile pre h := by
  unfold startSolve
  split
  · exact ⟨[], _, rfl, by cases a.solver.compile <;> rfl⟩
  · obtain ⟨pre, post, he, hp⟩ := setup_heap a.solver.compile m a.adds h
    refine ⟨pre, post, he, ?_⟩
    rw [← hp]
    cases setup a.solver.compile m a.adds h with
    | mk h1 r =>
      cases r with
      | error e => rfl
      | ok info => simp only; split <;> rfl

/-! ## The start of `solve` -/

/-- The generator at the first pass of the loop. -/
def Gen.first (names : List Name) (t : Int) : Gen := ⟨⟨[(names, [])], []⟩, ⟨0, some t, 0⟩, 1, 0, none, .running⟩

/-- The possible starts. -/
inductive StartCase (a : SolveArgs) (m : Model) (h : Heap) : Prop
  | idle : (startSolve a m h).2.2 = Gen.idle .finished → (m.solvable = false ∨ m.pureVars.keys = []) → StartCase a m h
  | fail (e : Err) : (startSolve a m h).2.2 = Gen.idle (.raised e) → m.solvable = true →
      (setup a.solver.compile m a.adds h).2 = .error e → StartCase a m h
  | go (H : Heap) (info : Info) : m.solvable = true → setup a.solver.compile m a.adds h = (H, .ok info) →
      startSolve a m h = (H, info, Gen.first (orderVars a.solver.policy a.shuffle m info) (a.clock 0)) →
      orderVars a.solver.policy a.shuffle m info ≠ [] →
      (orderVars a.solver.policy a.shuffle m info).Perm m.pureVars.keys → StartCase a m h

theorem startCase {a : SolveArgs} (m : Model) (h : Heap) (hs : ∀ l, (a.shuffle l).Perm l) : StartCase a m h := by
  by_cases hsol : m.solvable = true
  · cases hset : setup a.solver.compile m a.adds h with
    | mk H r =>
      cases r with
      | error e =>
        exact .fail e (by simp [startSolve, hsol, hset]) hsol (by rw [hset])
      | ok info =>
        have hp : (orderVars a.solver.policy a.shuffle m info).Perm m.pureVars.keys := by
          rw [← setup_keys hset]; exact orderVars_perm _ hs m info
        cases ho : orderVars a.solver.policy a.shuffle m info with
        | nil =>
          refine .idle (by simp [startSolve, hsol, hset, ho]) (.inr ?_)
          rw [ho] at hp
          exact hp.nil_eq.symm
        | cons x xs =>
          refine .go H info hsol hset ?_ (by rw [ho]; simp) hp
          simp [startSolve, hsol, hset, ho, Timer.doStart, Timer.new, Timer.running, Gen.withTimer, Gen.idle, Gen.first]
  · have hsol : m.solvable = false := by simpa using hsol
    exact .idle (by simp [startSolve, hsol]) (.inl hsol)

/-- Outputs are always a prefix of those of the recursive search; the run ends as described by `EndsAs`. -/
theorem run_first {S : Type} (cfg : RunCfg) (cand : S → Name → Subst → Res (List Int)) (act : S → Subst → Res S)
    (names : List Name) (hne : names ≠ []) (hn : names.Nodup) (t : Int) (s : S) :
    (∃ N, (sysRun cfg cand act N (.first names t) s).2.1.phase.terminal ∧
      EndsAs cfg act 0 (dfs cand act names [] s).1 (finalB (dfs cand act names [] s).2)
        (sysRun cfg cand act N (.first names t) s).1 (sysRun cfg cand act N (.first names t) s).2.1
        (sysRun cfg cand act N (.first names t) s).2.2) ∧
    ∀ n, (sysRun cfg cand act n (.first names t) s).1 <+: (dfs cand act names [] s).1 := by
  obtain ⟨k, hk⟩ := refine_top cand act names hne hn s
  have hend := sys_end cfg cand act k (.first names t) s t _ _ hk (by
    cases (dfs cand act names [] s).2 <;> simp [finalB, BSt.terminal]) rfl rfl rfl
  refine ⟨hend, fun n => ?_⟩
  obtain ⟨N, hN, he⟩ := hend
  have hpre : (sysRun cfg cand act N (.first names t) s).1 <+: (dfs cand act names [] s).1 := by
    cases he with
    | natural h1 => rw [h1]; exact List.prefix_rfl
    | timeout h1 => exact h1
    | limit l h1 => exact h1
  rcases Nat.le_total n N with h | h
  · exact (sysRun_prefix cfg cand act h _ _).trans hpre
  · rw [sysRun_stable cfg cand act h _ _ hN]; exact hpre

theorem solveRun_eq (a : SolveArgs) (m : Model) (act : Heap → Subst → Res Heap) (n : Nat) (h : Heap) :
    solveRun a m act n h = sysRun a.cfg (candidates (startSolve a m h).2.1) act n (startSolve a m h).2.2 (startSolve a m h).1 := rfl

theorem solveRun_idle {a : SolveArgs} {m : Model} {h : Heap} {ph : Phase} (hp : ph.terminal)
    (hs : (startSolve a m h).2.2 = Gen.idle ph) (act : Heap → Subst → Res Heap) (n : Nat) :
    solveRun a m act n h = ([], Gen.idle ph, (startSolve a m h).1) := by
  rw [solveRun_eq, hs]
  exact sysRun_terminal _ _ _ (by exact hp) n _

/-! ## Runs whose consumer changes nothing -/

theorem sysRun_passive_state (cfg : RunCfg) (cand : Heap → Name → Subst → Res (List Int)) (n : Nat) (g : Gen) (s : Heap) :
    (sysRun cfg cand passive n g s).2.2 = s := by
  induction n generalizing g with
  | zero => rfl
  | succ n ih =>
    rw [sysRun_succ]
    have : (sysStep cfg cand passive g s).2 = s := by
      unfold sysStep passive; cases g.phase <;> rfl
    simp only [this, ih]

theorem sysRun_passive_congr (cfg : RunCfg) (cand cand' : Heap → Name → Subst → Res (List Int)) {s s' : Heap}
    (h : cand s = cand' s') (n : Nat) (g : Gen) :
    (sysRun cfg cand passive n g s).1 = (sysRun cfg cand' passive n g s').1 ∧
    (sysRun cfg cand passive n g s).2.1 = (sysRun cfg cand' passive n g s').2.1 := by
  induction n generalizing g with
  | zero => exact ⟨rfl, rfl⟩
  | succ n ih =>
    rw [sysRun_succ, sysRun_succ]
    have h1 : (sysStep cfg cand passive g s).2 = s := by
      unfold sysStep passive; cases g.phase <;> rfl
    have h1' : (sysStep cfg cand' passive g s').2 = s' := by
      unfold sysStep passive; cases g.phase <;> rfl
    have h2 : (sysStep cfg cand passive g s).1 = (sysStep cfg cand' passive g s').1 := by
      unfold sysStep passive; cases g.phase <;> simp [h]
    simp only [h1, h1', h2]
    exact ⟨by rw [(ih _).1], (ih _).2⟩

/-! ## Limit and timeout -/

/-- The same call with other limits and another clock. -/
def SolveArgs.cut (a : SolveArgs) (limit timeout : Option Int) (clock : Nat → Int) : SolveArgs :=
  { a with solver := { a.solver with limit := limit, timeout := timeout }, clock := clock }

/-- How a run that would hand out `D` and end with phase `ph` ends under a limit and a timeout. -/
inductive Cut (limit timeout : Option Int) (D : List Subst) (ph : Phase) (outs : List Subst) (g : Gen) : Prop
  | natural : outs = D → g.phase = ph → g.interrupt = none →
      (outs = [] ∨ ∀ l, limit = some l → (outs.length : Int) < l) → Cut limit timeout D ph outs g
  | timeout : outs <+: D → g.phase = .finished → g.interrupt = some .timeout → timeout.isSome →
      (outs = [] ∨ ∀ l, limit = some l → (outs.length : Int) < l) → Cut limit timeout D ph outs g
  | limit (l : Int) : outs <+: D → g.phase = .finished → g.interrupt = some .limit → limit = some l →
      outs.length = max 1 l.toNat → Cut limit timeout D ph outs g

theorem outcome (a : SolveArgs) (m : Model) (h : Heap) (hs : ∀ l, (a.shuffle l).Perm l) (hn : m.vars.keys.Nodup) :
    ∃ D ph, ∀ lim tmo clk, ∃ N, (solveRun (a.cut lim tmo clk) m passive N h).2.1.phase.terminal ∧
      Cut lim tmo D ph (solveRun (a.cut lim tmo clk) m passive N h).1 (solveRun (a.cut lim tmo clk) m passive N h).2.1 := by
  have hidle : ∀ ph : Phase, ph.terminal → (startSolve a m h).2.2 = Gen.idle ph →
      (∀ lim tmo clk, (startSolve (a.cut lim tmo clk) m h).2.2 = Gen.idle ph) →
      ∃ D ph, ∀ lim tmo clk, ∃ N, (solveRun (a.cut lim tmo clk) m passive N h).2.1.phase.terminal ∧
      Cut lim tmo D ph (solveRun (a.cut lim tmo clk) m passive N h).1 (solveRun (a.cut lim tmo clk) m passive N h).2.1 := by
    intro ph hph _ hg
    refine ⟨[], ph, fun lim tmo clk => ⟨0, ?_⟩⟩
    rw [solveRun_idle hph (hg lim tmo clk)]
    exact ⟨hph, .natural rfl rfl rfl (.inl rfl)⟩
  cases startCase (a := a) m h hs with
  | idle h1 h2 =>
    refine hidle .finished trivial h1 (fun lim tmo clk => ?_)
    cases startCase (a := a.cut lim tmo clk) m h hs with
    | idle h1' _ => exact h1'
    | fail e _ h1' h3 =>
      rcases h2 with h2 | h2
      · rw [h2] at h1'; cases h1'
      · exfalso
        have h3 : (setup a.solver.compile m a.adds h).2 = .error e := h3
        have : (startSolve a m h).2.2 = Gen.idle (.raised e) := by
          unfold startSolve
          cases hset : setup a.solver.compile m a.adds h with
          | mk H r => rw [hset] at h3; simp only at h3; subst h3; simp [h1']
        rw [h1] at this
        simp [Gen.idle] at this
    | go H info hsol _ _ hne hp =>
      rcases h2 with h2 | h2
      · rw [h2] at hsol; cases hsol
      · rw [h2] at hp; exact absurd hp.eq_nil hne
  | fail e h1 hsol hset =>
    refine hidle (.raised e) trivial h1 (fun lim tmo clk => ?_)
    cases startCase (a := a.cut lim tmo clk) m h hs with
    | idle _ h2 =>
      unfold startSolve
      show (if (!m.solvable) = true then _ else _ : Heap × Info × Gen).2.2 = _
      have : (setup (a.cut lim tmo clk).solver.compile m (a.cut lim tmo clk).adds h) = setup a.solver.compile m a.adds h := rfl
      rw [this]
      cases hs : setup a.solver.compile m a.adds h with
      | mk H r => rw [hs] at hset; simp only at hset; subst hset; simp [hsol]
    | fail e' h1' _ hset' =>
      have hset' : (setup a.solver.compile m a.adds h).2 = .error e' := hset'
      rw [hset] at hset'; cases hset'; exact h1'
    | go H info _ hset' =>
      have hset' : setup a.solver.compile m a.adds h = (H, .ok info) := hset'
      rw [hset'] at hset; simp at hset
  | go H info hsol hset hst hne hp =>
    have hnd : (orderVars a.solver.policy a.shuffle m info).Nodup := hp.nodup_iff.2 (pureVars_nodup hn)
    refine ⟨(dfs (candidates info) passive (orderVars a.solver.policy a.shuffle m info) [] H).1,
      (match (dfs (candidates info) passive (orderVars a.solver.policy a.shuffle m info) [] H).2 with
        | .ok _ => .finished | .error e => .raised e), fun lim tmo clk => ?_⟩
    have hst' : startSolve (a.cut lim tmo clk) m h =
        (H, info, Gen.first (orderVars a.solver.policy a.shuffle m info) (clk 0)) := by
      cases startCase (a := a.cut lim tmo clk) m h hs with
      | idle _ h2 =>
        rcases h2 with h2 | h2
        · rw [h2] at hsol; cases hsol
        · rw [h2] at hp; exact absurd hp.eq_nil hne
      | fail e _ _ hset' =>
        have hset' : (setup a.solver.compile m a.adds h).2 = .error e := hset'
        rw [hset] at hset'; simp at hset'
      | go H' info' _ hset' hst' _ _ =>
        have hset' : setup a.solver.compile m a.adds h = (H', .ok info') := hset'
        rw [hset] at hset'
        simp only [Prod.mk.injEq, Except.ok.injEq] at hset'
        obtain ⟨rfl, rfl⟩ := hset'
        exact hst'
    obtain ⟨N, hN, he⟩ := (run_first (a.cut lim tmo clk).cfg (candidates info) passive
      (orderVars a.solver.policy a.shuffle m info) hne hnd (clk 0) H).1
    refine ⟨N, ?_⟩
    rw [solveRun_eq, hst']
    refine ⟨hN, ?_⟩
    have htot : ∀ (s : Heap) (σ : Subst) (e : Err), passive s σ ≠ .error e := by intro s σ e; simp [passive]
    cases he with
    | natural h1 h2 h3 h4 h5 =>
      refine .natural h1 ?_ h2 ?_
      · cases hr : (dfs (candidates info) passive (orderVars a.solver.policy a.shuffle m info) [] H).2 with
        | ok s => exact (h3 s (by rw [hr]; rfl)).1
        | error e => exact h4 e (by rw [hr]; rfl)
      · have h5 := h5 htot; rw [Nat.zero_add] at h5; exact h5
    | timeout h1 h2 h3 h4 h5 =>
      exact .timeout h1 h2 h3 h4 (by have h5 := h5 htot; rw [Nat.zero_add] at h5; exact h5)
    | limit l h1 h2 h3 h4 h5 => exact .limit l h1 h2 h3 h4 (by simpa using h5)

/-! ## Dependence on the heap -/

theorem filterDomain_congr {h h' : Heap} {c : Constraint} (he : ∀ σ, c.evaluate h σ = c.evaluate h' σ) (x : Name) (d : List Int) :
    filterDomain h c x d = filterDomain h' c x d := by
  induction d with
  | nil => rfl
  | cons v d ih => simp only [filterDomain, he, ih]

theorem setupOne_congr {comp comp' : Bool} {c : Constraint} {h h' : Heap} (info : Info)
    (he : ∀ σ, c.evaluate (compileAll comp [c] h) σ = c.evaluate (compileAll comp' [c] h') σ) :
    (setupOne comp c h info).2 = (setupOne comp' c h' info).2 := by
  have hcomp : ∀ comp h, (if comp = true then c.compile h else h) = compileAll comp [c] h := by
    intro comp h; cases comp <;> rfl
  unfold setupOne
  simp only [hcomp]
  split
  · rfl
  · split
    · split
      · rw [filterDomain_congr he]
        split <;> rfl
      · rfl
    · rfl

theorem setupLoop_congr {comp comp' : Bool} (rest : List Constraint) : ∀ (pre : List Constraint) {h h' : Heap} (info : Info),
    (∀ p c q, rest = p ++ c :: q → ∀ σ, c.evaluate (compileAll comp (pre ++ p ++ [c]) h) σ =
      c.evaluate (compileAll comp' (pre ++ p ++ [c]) h') σ) →
    (setupLoop comp rest (compileAll comp pre h) info).2 = (setupLoop comp' rest (compileAll comp' pre h') info).2 := by
  induction rest with
  | nil => intro pre h h' info _; rfl
  | cons c rest ih =>
    intro pre h h' info he
    rw [setupLoop, setupLoop]
    have h1 := setupOne_congr (comp := comp) (comp' := comp') (c := c) (h := compileAll comp pre h)
      (h' := compileAll comp' pre h') info (by
        intro σ
        have := he [] c rest rfl σ
        simpa [compileAll_append] using this)
    have e1 := setupOne_heap comp c (compileAll comp pre h) info
    have e2 := setupOne_heap comp' c (compileAll comp' pre h') info
    rw [← compileAll_append] at e1 e2
    cases hs : setupOne comp c (compileAll comp pre h) info with
    | mk a r =>
      cases hs' : setupOne comp' c (compileAll comp' pre h') info with
      | mk a' r' =>
        rw [hs] at h1 e1; rw [hs'] at h1 e2
        simp only at h1 e1 e2
        subst h1
        cases r with
        | error e => rfl
        | ok info1 =>
          simp only
          rw [e1, e2]
          refine ih (pre ++ [c]) info1 ?_
          intro p c' q hq σ
          have := he (c :: p) c' q (by simp [hq]) σ
          simpa using this

theorem noneUnsat_congr {h h' : Heap} {cs : List Constraint} (he : ∀ c ∈ cs, ∀ σ, c.evaluate h σ = c.evaluate h' σ) (σ : Subst) :
    noneUnsat h σ cs = noneUnsat h' σ cs := by
  induction cs with
  | nil => rfl
  | cons c cs ih =>
    simp only [noneUnsat]
    rw [unsatisfied_eq_of_evaluate (he c (by simp) σ), ih (fun c hc => he c (by simp [hc]))]

theorem candidates_congr {info : Info} {h h' : Heap} (he : ∀ x, ∀ c ∈ info.cons x, ∀ σ, c.evaluate h σ = c.evaluate h' σ) :
    candidates info h = candidates info h' := by
  funext x σ
  unfold candidates
  cases info.vars.get? x with
  | none => rfl
  | some d =>
    simp only
    induction d with
    | nil => rfl
    | cons v d ih =>
      simp only [candLoop, acceptable, ih]
      rw [noneUnsat_congr (he x)]

/-- The constraints listed in the `ModelInfo` come from the model or the arguments. -/
theorem setupOne_cons {comp : Bool} {c : Constraint} {h h' : Heap} {info info' : Info}
    (hs : setupOne comp c h info = (h', .ok info')) : ∀ x, ∀ c' ∈ info'.cons x, c' ∈ info.cons x ∨ c' = c := by
  intro x c' hc'
  unfold setupOne at hs
  simp only at hs
  split at hs
  · simp only [Prod.mk.injEq, Except.ok.injEq] at hs
    rw [← hs.2] at hc'; exact .inl hc'
  · split at hs
    · split at hs
      · split at hs
        · simp only [Prod.mk.injEq, Except.ok.injEq] at hs
          rw [← hs.2] at hc'; exact .inl hc'
        · simp at hs
      · simp only [Prod.mk.injEq, Except.ok.injEq] at hs
        rw [← hs.2] at hc'; exact .inl hc'
    · simp only [Prod.mk.injEq, Except.ok.injEq] at hs
      rw [← hs.2] at hc'
      simp only at hc'
      split at hc'
      · simpa using hc'
      · exact .inl hc'

theorem setupLoop_cons {comp : Bool} {cs : List Constraint} {h h' : Heap} {info info' : Info}
    (hs : setupLoop comp cs h info = (h', .ok info')) : ∀ x, ∀ c' ∈ info'.cons x, c' ∈ info.cons x ∨ c' ∈ cs := by
  induction cs generalizing h info with
  | nil => intro x c' hc'; simp only [setupLoop, Prod.mk.injEq, Except.ok.injEq] at hs; rw [hs.2]; exact .inl hc'
  | cons c cs ih =>
    intro x c' hc'
    rw [setupLoop] at hs
    cases h1 : setupOne comp c h info with
    | mk h1' r =>
      rw [h1] at hs
      cases r with
      | error e => simp at hs
      | ok info1 =>
        rcases ih hs x c' hc' with h2 | h2
        · rcases setupOne_cons h1 x c' h2 with h3 | h3
          · exact .inl h3
          · exact .inr (by simp [h3])
        · exact .inr (by simp [h2])

theorem setup_cons {comp : Bool} {m : Model} {adds : List Constraint} {h h' : Heap} {info : Info}
    (hs : setup comp m adds h = (h', .ok info)) : ∀ x, ∀ c ∈ info.cons x, c ∈ m.constraints ++ adds := by
  intro x c hc
  unfold setup at hs
  cases hl : setupLoop comp (m.constraints ++ adds) h (.init m) with
  | mk h1 r =>
    rw [hl] at hs
    cases r with
    | error e => simp at hs
    | ok info1 =>
      simp only at hs
      split at hs
      · simp at hs
      · simp only [Prod.mk.injEq, Except.ok.injEq] at hs
        rw [← hs.2] at hc
        rcases setupLoop_cons hl x c hc with h2 | h2
        · simp [Info.init] at h2
        · exact h2

theorem setup_congr {comp comp' : Bool} {m : Model} {adds : List Constraint} {h h' : Heap}
    (he : ∀ p c q, m.constraints ++ adds = p ++ c :: q → ∀ σ, c.evaluate (compileAll comp (p ++ [c]) h) σ =
      c.evaluate (compileAll comp' (p ++ [c]) h') σ) :
    (setup comp m adds h).2 = (setup comp' m adds h').2 := by
  have := setupLoop_congr (comp := comp) (comp' := comp') (m.constraints ++ adds) [] (h := h) (h' := h') (.init m)
    (by simpa using he)
  have e1 : ∀ comp h, compileAll comp [] h = h := by intro comp h; cases comp <;> rfl
  rw [e1, e1] at this
  unfold setup
  cases hs : setupLoop comp (m.constraints ++ adds) h (.init m) with
  | mk a r =>
    cases hs' : setupLoop comp' (m.constraints ++ adds) h' (.init m) with
    | mk a' r' =>
      rw [hs, hs'] at this
      simp only at this
      subst this
      cases r with
      | error e => rfl
      | ok info =>
        simp only
        split <;> rfl

/-- The final heap of a successful setup. -/
theorem setup_ok_heap {comp : Bool} {m : Model} {adds : List Constraint} {h h' : Heap} {info : Info}
    (hs : setup comp m adds h = (h', .ok info)) : h' = compileAll comp (m.constraints ++ adds) h := by
  have gen : ∀ cs (h h' : Heap) (info info' : Info), setupLoop comp cs h info = (h', .ok info') → h' = compileAll comp cs h := by
    intro cs
    induction cs with
    | nil => intro h h' info info' hs; simp only [setupLoop, Prod.mk.injEq] at hs; rw [← hs.1]; cases comp <;> rfl
    | cons c cs ih =>
      intro h h' info info' hs
      rw [setupLoop] at hs
      have hh := setupOne_heap comp c h info
      cases h1 : setupOne comp c h info with
      | mk h1' r =>
        rw [h1] at hs hh
        cases r with
        | error e => simp at hs
        | ok info1 =>
          simp only at hs hh
          rw [ih _ _ _ _ hs, hh]
          exact (compileAll_append comp [c] cs h).symm
  unfold setup at hs
  cases hl : setupLoop comp (m.constraints ++ adds) h (.init m) with
  | mk h1 r =>
    rw [hl] at hs
    cases r with
    | error e => simp at hs
    | ok info1 =>
      simp only at hs
      split at hs
      · simp at hs
      · simp only [Prod.mk.injEq, Except.ok.injEq] at hs
        rw [← hs.1]
        exact gen _ _ _ _ _ hl

/-- **Two runs on different heaps** hand out the same, in the same way, if every constraint evaluates the
same in both. -/
theorem solveRun_congr {a a' : SolveArgs} {m : Model} {h h' : Heap} (hadds : a.adds = a'.adds)
    (hpol : a.solver.policy = a'.solver.policy) (hsh : a.shuffle = a'.shuffle) (hcfg : a.cfg = a'.cfg)
    (he1 : ∀ p c q, m.constraints ++ a.adds = p ++ c :: q → ∀ σ, c.evaluate (compileAll a.solver.compile (p ++ [c]) h) σ =
      c.evaluate (compileAll a'.solver.compile (p ++ [c]) h') σ)
    (he2 : ∀ c ∈ m.constraints ++ a.adds, ∀ σ, c.evaluate (compileAll a.solver.compile (m.constraints ++ a.adds) h) σ =
      c.evaluate (compileAll a'.solver.compile (m.constraints ++ a.adds) h') σ) (n : Nat) :
    (solveRun a m passive n h).1 = (solveRun a' m passive n h').1 ∧
    (solveRun a m passive n h).2.1 = (solveRun a' m passive n h').2.1 := by
  have hset := setup_congr he1
  have key : (startSolve a m h).2 = (startSolve a' m h').2 ∧
      candidates (startSolve a m h).2.1 (startSolve a m h).1 = candidates (startSolve a' m h').2.1 (startSolve a' m h').1 := by
    have hclock : a.clock = a'.clock := by
      have := hcfg; simp only [SolveArgs.cfg, RunCfg.mk.injEq] at this; exact this.2.2
    have hinit : ∀ H, candidates (.init m) H = candidates (.init m) H := fun _ => rfl
    unfold startSolve
    by_cases hsol : m.solvable = true
    · simp only [hsol, Bool.not_true, Bool.false_eq_true, if_false]
      rw [← hadds]
      cases hs : setup a.solver.compile m a.adds h with
      | mk H r =>
        cases hs' : setup a'.solver.compile m a.adds h' with
        | mk H' r' =>
          rw [hs, hs'] at hset
          simp only at hset
          subst hset
          cases r with
          | error e =>
            refine ⟨rfl, candidates_congr ?_⟩
            simp [Info.init]
          | ok info =>
            have hc : candidates info H = candidates info H' := by
              refine candidates_congr (fun x c hc σ => ?_)
              rw [setup_ok_heap hs, setup_ok_heap hs']
              exact he2 c (setup_cons hs x c hc) σ
            simp only
            rw [hpol, hsh, hclock]
            cases orderVars a'.solver.policy a'.shuffle m info with
            | nil => exact ⟨rfl, hc⟩
            | cons x xs => exact ⟨rfl, hc⟩
    · have hsol : m.solvable = false := by simpa using hsol
      simp only [hsol, Bool.not_false, if_true]
      exact ⟨by simp, candidates_congr (by simp [Info.init])⟩
  rw [solveRun_eq, solveRun_eq, hcfg, key.1]
  rw [key.1] at key
  exact sysRun_passive_congr _ _ _ key.2 n _

end Satisfy
