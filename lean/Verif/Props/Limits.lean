import Verif.Props.Solver
/-!
C20-C22: limit, timeout, timer and statistics.
-/

namespace Satisfy.Props

/-- Two points at which an iteration is over are the same. -/
theorem over_unique {a : SolveArgs} {m : Model} {h : Heap} {act : Heap → Subst → Res Heap} {n n' : Nat}
    (h1 : (solveRun a m act n h).2.1.phase.terminal) (h2 : (solveRun a m act n' h).2.1.phase.terminal) :
    solveRun a m act n h = solveRun a m act n' h := by
  rcases Nat.le_total n n' with hl | hl
  · exact (sysRun_stable _ _ _ hl _ _ h1).symm
  · exact sysRun_stable _ _ _ hl _ _ h2

/-- What has been handed out by a finished iteration starts with what has been handed out at any time. -/
theorem prefix_of_over {a : SolveArgs} {m : Model} {h : Heap} {act : Heap → Subst → Res Heap} {n N : Nat}
    (h1 : (solveRun a m act N h).2.1.phase.terminal) : (solveRun a m act n h).1 <+: (solveRun a m act N h).1 := by
  rcases Nat.le_total n N with hl | hl
  · exact sysRun_prefix _ _ _ hl _ _
  · have : solveRun a m act n h = solveRun a m act N h := sysRun_stable _ _ _ hl _ _ h1
    rw [this]; exact List.prefix_rfl

/-- C20: with a limit the iteration hands out the first `max 1 limit` solutions of the unlimited one (all, if there
are fewer); it is interrupted by the limit exactly when it got that many, otherwise it ends as the unlimited one. -/
theorem C20_limit (a : SolveArgs) (hs : ∀ l, (a.shuffle l).Perm l) (m : Model) (hn : m.vars.keys.Nodup) (h : Heap)
    (clk clk' : Nat → Int) (l : Int) (n n' : Nat)
    (hend : (solveRun (a.cut none none clk) m passive n h).2.1.phase.terminal)
    (hend' : (solveRun (a.cut (some l) none clk') m passive n' h).2.1.phase.terminal) :
    let full := solveRun (a.cut none none clk) m passive n h
    let cut := solveRun (a.cut (some l) none clk') m passive n' h
    cut.1 = full.1.take (max 1 l.toNat) ∧
    (cut.2.1.interrupt = some .limit ↔ max 1 l.toNat ≤ full.1.length) ∧
    (cut.2.1.interrupt = some .limit → cut.2.1.phase = .finished) ∧
    (cut.2.1.interrupt ≠ some .limit → cut.2.1.phase = full.2.1.phase ∧ cut.2.1.interrupt = none) := by
  obtain ⟨D, ph, ho⟩ := outcome a m h hs hn
  obtain ⟨N, hN, hc⟩ := ho none none clk
  obtain ⟨N', hN', hc'⟩ := ho (some l) none clk'
  rw [over_unique hN hend] at hc
  rw [over_unique hN' hend'] at hc'
  intro full cut
  have hfull : full.1 = D ∧ full.2.1.phase = ph := by
    cases hc with
    | natural h1 h2 _ _ => exact ⟨h1, h2⟩
    | timeout _ _ _ h4 => cases h4
    | limit _ _ _ _ h4 => cases h4
  rw [hfull.1, hfull.2]
  cases hc' with
  | timeout _ _ _ h4 => cases h4
  | natural h1 h2 h3 h4 =>
    have hlt : D.length < max 1 l.toNat := by
      rw [h1] at h4
      rcases h4 with h4 | h4
      · rw [h4]; simp
      · have := h4 l rfl; omega
    refine ⟨?_, ?_, ?_, ?_⟩
    · rw [List.take_of_length_le (by omega)]; exact h1
    · show cut.2.1.interrupt = _ ↔ _
      rw [h3]; simp; omega
    · intro hi; rw [h3] at hi; cases hi
    · intro _; exact ⟨h2, h3⟩
  | limit l' h1 h2 h3 h4 h5 =>
    cases h4
    refine ⟨?_, ?_, ?_, ?_⟩
    · rw [← h5]; exact List.prefix_iff_eq_take.1 h1
    · rw [← h5]; exact ⟨fun _ => h1.length_le, fun _ => h3⟩
    · intro _; exact h2
    · intro hne; exact absurd h3 hne

example : (solveRun (exArgs.cut (some 1) none fun _ => 0) exModel passive 12 exHeap).1 = [[("y", 3), ("x", 1)]] ∧
    (solveRun (exArgs.cut (some 1) none fun _ => 0) exModel passive 12 exHeap).2.1.interrupt = some .limit := by decide

/-- A limit of 0 does not mean "nothing". -/
example : (solveRun (exArgs.cut (some 0) none fun _ => 0) exModel passive 12 exHeap).1 = [[("y", 3), ("x", 1)]] := by decide

/-! ## Invariants of the steps -/

section
variable {S : Type} (cfg : RunCfg) (cand : S → Name → Subst → Res (List Int)) (act : S → Subst → Res S)

/-- What a step of the generator does to the timer, the counters and the flag. -/
inductive StepKind (g g' : Gen) : Prop
  /-- Nothing but the search state and the number of clock readings changes. -/
  | search : g.phase = .running → g'.phase = .running → g'.timer = g.timer → g'.num = g.num → g'.interrupt = g.interrupt → StepKind g g'
  /-- A solution is handed out; the timer is stopped at the current time. -/
  | out (σ : Subst) (t0 : Int) : g.phase = .running → g'.phase = .suspended σ → g.timer.start = some t0 →
      g'.timer = ⟨g.timer.elapsed + (cfg.clock (g'.tick - 1) - t0), none, g.timer.count + 1⟩ → g'.num = g.num + 1 →
      g'.interrupt = g.interrupt → StepKind g g'
  /-- The consumer asks for more; the timer is started at the current time. -/
  | goOn (σ : Subst) : g.phase = .suspended σ → g'.phase = .running → g'.timer = { g.timer with start := some (cfg.clock (g'.tick - 1)) } →
      g'.num = g.num → g'.interrupt = g.interrupt → (∀ l, cfg.limit = some l → (g.num : Int) < l) → StepKind g g'
  /-- The limit has been reached. -/
  | limit (σ : Subst) (l : Int) : g.phase = .suspended σ → g'.phase = .finished → cfg.limit = some l → (g.num : Int) ≥ l →
      g'.timer = g.timer → g'.num = g.num → g'.interrupt = some .limit → StepKind g g'
  /-- The time is over: the elapsed time at a new clock reading exceeds the timeout. -/
  | timeout (t : Int) : g.phase = .running → g'.phase = .finished → cfg.timeout = some t →
      g.timer.elapsedAt (cfg.clock (g'.tick - 1)) > t → g'.timer = g.timer → g'.num = g.num → g'.interrupt = some .timeout → StepKind g g'
  /-- The search is exhausted, or a constraint or the consumer raises. -/
  | stop : g'.phase.terminal → (∀ σ, g.phase = .suspended σ → ∃ e, g'.phase = .raised e) → g'.timer = g.timer → g'.num = g.num →
      g'.interrupt = g.interrupt → StepKind g g'

/-- The protocol: the timer runs while the search runs, and is stopped while the consumer has control. -/
def TimerOk (g : Gen) : Prop :=
  match g.phase with
  | .running => ∃ t0, g.timer.start = some t0
  | .suspended _ => g.timer.start = none
  | _ => True

theorem step_kind (g : Gen) (s : S) (hok : TimerOk g) : StepKind cfg g (sysStep cfg cand act g s).1 := by
  unfold sysStep
  cases hp : g.phase with
  | finished => simp only; exact .stop (by rw [hp]; trivial) (by intro σ h; rw [hp] at h; cases h) rfl rfl rfl
  | raised e => simp only; exact .stop (by rw [hp]; trivial) (by intro σ h; rw [hp] at h; cases h) rfl rfl rfl
  | running =>
    simp only [TimerOk, hp] at hok
    obtain ⟨t0, ht0⟩ := hok
    simp only
    have nosus : ∀ ph σ, g.phase = .suspended σ → ∃ e, ph = Phase.raised e := by intro ph σ h; rw [hp] at h; cases h
    by_cases hne : g.search.stack.isEmpty = true
    · simp only [Gen.loop, hne, if_true]
      exact .stop trivial (nosus _) rfl rfl rfl
    · have hne : g.search.stack.isEmpty = false := by simpa using hne
      by_cases hto : g.timedOut cfg = true
      · rw [loop_timeout cfg hne hto]
        unfold Gen.timedOut at hto
        cases hc : cfg.timeout with
        | none => simp [hc] at hto
        | some t => exact .timeout t hp rfl hc (by simpa [hc] using hto) rfl rfl rfl
      · obtain ⟨t, hl⟩ := loop_nonempty cfg (c := cand s) (g := g) (by simpa using hto)
        rw [hl]
        cases g.search.step (cand s) with
        | done => exact .stop trivial (nosus _) rfl rfl rfl
        | raised e => exact .stop trivial (nosus _) rfl rfl rfl
        | silent s' => exact .search hp hp rfl rfl rfl
        | yield σ s' =>
          simp only [Timer.doStop, ht0]
          exact .out σ t0 hp rfl ht0 rfl rfl rfl
  | suspended σ =>
    simp only [TimerOk, hp] at hok
    simp only
    cases act s σ with
    | error e => exact .stop trivial (fun _ _ => ⟨e, rfl⟩) rfl rfl rfl
    | ok s' =>
      simp only
      by_cases hl : ∀ l, cfg.limit = some l → (g.num : Int) < l
      · rw [resume_go cfg hl hok]
        exact .goOn σ hp rfl rfl rfl rfl hl
      · have : ∃ l, cfg.limit = some l ∧ ¬ (g.num : Int) < l := by
          by_contra hc; exact hl (fun l h => by by_contra h'; exact hc ⟨l, h, h'⟩)
        obtain ⟨l, h1, h2⟩ := this
        have h2 : (g.num : Int) ≥ l := by omega
        simp only [Gen.resume, h1, h2, decide_true, if_true, Timer.abort, Timer.running, hok, Option.isSome_none,
          Bool.false_eq_true, if_false, Gen.withTimer]
        exact .limit σ l hp rfl h1 h2 rfl rfl rfl

theorem StepKind.timerOk {g g' : Gen} (h : StepKind cfg g g') (hok : TimerOk g) : TimerOk g' := by
  unfold TimerOk at *
  cases h with
  | search h1 h2 h3 => rw [h1] at hok; rw [h2, h3]; exact hok
  | out σ t0 _ h2 _ h4 => rw [h2, h4]
  | goOn σ _ h2 h3 => rw [h2, h3]; exact ⟨_, rfl⟩
  | limit σ l _ h2 => rw [h2]; trivial
  | timeout t _ h2 => rw [h2]; trivial
  | stop h1 _ =>
    cases hp : (g').phase with
    | finished => trivial
    | raised e => trivial
    | running => rw [hp] at h1; exact absurd h1 (by simp [Phase.terminal])
    | suspended σ => rw [hp] at h1; exact absurd h1 (by simp [Phase.terminal])

/-- The time spent searching, as an observer of the phases would add it up: from each moment the generator gets
control (`t0`: the last such moment) to the moment it hands out a solution. -/
def searchTime : Nat → Gen → S → Int → Int
  | 0, _, _, _ => 0
  | n + 1, g, s, t0 =>
    let (g', s') := sysStep cfg cand act g s
    let now := cfg.clock (g'.tick - 1)
    match g.phase, g'.phase with
    | .running, .suspended _ => (now - t0) + searchTime n g' s' t0
    | .suspended _, .running => searchTime n g' s' now
    | _, _ => searchTime n g' s' t0

theorem run_invariant (n : Nat) (g : Gen) (s : S) (t0 : Int) (hok : TimerOk g) (ht : g.phase = .running → g.timer.start = some t0)
    (hi : g.interrupt ≠ none → g.phase = .finished) :
    let r := sysRun cfg cand act n g s
    TimerOk r.2.1 ∧ (r.2.1.interrupt ≠ none → r.2.1.phase = .finished) ∧
    r.2.1.num = g.num + r.1.length ∧ r.2.1.timer.count = g.timer.count + r.1.length ∧
    r.2.1.timer.elapsed = g.timer.elapsed + searchTime cfg cand act n g s t0 := by
  induction n generalizing g s t0 with
  | zero => simp [sysRun, searchTime, hok]; exact hi
  | succ n ih =>
    have hk := step_kind cfg cand act g s hok
    have hok' := StepKind.timerOk cfg hk hok
    simp only [sysRun_succ]
    unfold searchTime
    simp only
    generalize hg' : sysStep cfg cand act g s = p at *
    obtain ⟨g', s'⟩ := p
    simp only at *
    cases hk with
    | search h1 h2 h3 h4 h5 =>
      have := ih g' s' t0 hok' (by intro _; rw [h3]; exact ht h1) (by rw [h5]; intro h; have := hi h; rw [h1] at this; cases this)
      simp only [h1, h2, Phase.output, List.nil_append] at this ⊢
      rw [h3, h4] at this
      exact this
    | out σ t1 h1 h2 h3 h4 h5 h6 =>
      have := ih g' s' t0 hok' (by rw [h2]; intro h; cases h) (by rw [h6]; intro h; have := hi h; rw [h1] at this; cases this)
      simp only [h1, h2, Phase.output, List.cons_append, List.nil_append, List.length_cons] at this ⊢
      have hte := ht h1
      rw [h3] at hte
      cases hte
      rw [h4, h5] at this
      refine ⟨this.1, this.2.1, by have := this.2.2.1; omega, by have := this.2.2.2.1; simp only at this; omega, ?_⟩
      have := this.2.2.2.2
      simp only at this
      omega
    | goOn σ h1 h2 h3 h4 h5 =>
      have := ih g' s' (cfg.clock (g'.tick - 1)) hok' (by intro _; rw [h3]) (by rw [h5]; intro h; have := hi h; rw [h1] at this; cases this)
      simp only [h1, h2, List.nil_append] at this ⊢
      rw [h3, h4] at this
      exact this
    | limit σ l h1 h2 h3 h4 h5 h6 h7 =>
      have := ih g' s' t0 hok' (by rw [h2]; intro h; cases h) (by intro _; exact h2)
      simp only [h1, h2, List.nil_append] at this ⊢
      rw [h5, h6] at this
      exact this
    | timeout t h1 h2 h3 h4 h5 h6 h7 =>
      have := ih g' s' t0 hok' (by rw [h2]; intro h; cases h) (by intro _; exact h2)
      simp only [h1, h2, Phase.output, List.nil_append] at this ⊢
      rw [h5, h6] at this
      exact this
    | stop h1 h1' h2 h3 h4 =>
      have hrun : ∀ h : g'.phase = .running, False := by intro h; rw [h] at h1; exact h1
      have hsus : ∀ σ, ∀ h : g'.phase = .suspended σ, False := by intro σ h; rw [h] at h1; exact h1
      have hint : g'.interrupt ≠ none → g'.phase = .finished := by
        rw [h4]; intro h
        have hf := hi h
        have : sysStep cfg cand act g s = (g, s) := by simp [sysStep, hf]
        rw [this] at hg'
        cases hg'
        exact hf
      have := ih g' s' t0 hok' (fun h => (hrun h).elim) hint
      rw [h2, h3] at this
      cases hp' : g'.phase with
      | running => exact (hrun hp').elim
      | suspended σ => exact (hsus σ hp').elim
      | finished =>
        cases hp : g.phase <;> simp only [hp, Phase.output, List.nil_append] <;> exact this
      | raised e =>
        cases hp : g.phase <;> simp only [hp, Phase.output, List.nil_append] <;> exact this

end

theorem start_ok (a : SolveArgs) (hs : ∀ l, (a.shuffle l).Perm l) (m : Model) (h : Heap) :
    let g := (startSolve a m h).2.2
    TimerOk g ∧ (g.phase = .running → g.timer.start = some (a.clock 0)) ∧ g.interrupt = none ∧ g.num = 0 ∧ g.timer.count = 0 ∧
      g.timer.elapsed = 0 := by
  cases startCase (a := a) m h hs with
  | idle h1 _ => rw [h1]; simp [Gen.idle, TimerOk, Timer.new]
  | fail e h1 _ _ => rw [h1]; simp [Gen.idle, TimerOk, Timer.new]
  | go H info _ _ hst _ _ => rw [hst]; simp [Gen.first, TimerOk]

/-! ## C20, C21 -/

/-- Before the iteration is over no interruption is reported. -/
theorem C20_flag_last (a : SolveArgs) (hs : ∀ l, (a.shuffle l).Perm l) (m : Model) (act : Heap → Subst → Res Heap) (h : Heap) (n : Nat)
    (hi : (solveRun a m act n h).2.1.interrupt ≠ none) : (solveRun a m act n h).2.1.phase = .finished := by
  obtain ⟨h1, h2, h3, _⟩ := start_ok a hs m h
  exact (run_invariant a.cfg (candidates (startSolve a m h).2.1) act n _ (startSolve a m h).1 _ h1 h2 (by rw [h3]; intro h; exact absurd rfl h)).2.1 hi

/-- Where the number of solutions handed out stands with respect to the limit. -/
structure Within (cfg : RunCfg) (g : Gen) : Prop where
  all : ∀ l, cfg.limit = some l → g.num ≤ max 1 l.toNat
  running : g.phase = .running → ∀ l, cfg.limit = some l → g.num = 0 ∨ (g.num : Int) < l
  suspended : ∀ σ, g.phase = .suspended σ → 1 ≤ g.num
  flag : g.interrupt = some .limit → ∃ l, cfg.limit = some l ∧ g.num = max 1 l.toNat

theorem within_step {S : Type} (cfg : RunCfg) (cand : S → Name → Subst → Res (List Int)) (act : S → Subst → Res S) {g : Gen} {s : S} (hok : TimerOk g)
    (h : Within cfg g) : Within cfg (sysStep cfg cand act g s).1 := by
  have hk := step_kind cfg cand act g s hok
  generalize (sysStep cfg cand act g s).1 = g' at hk
  cases hk with
  | search h1 h2 _ h4 h5 =>
    exact ⟨by rw [h4]; exact h.all, fun _ => by rw [h4]; exact h.running h1, fun σ hσ => (by rw [h2] at hσ; cases hσ), by rw [h4, h5]; exact h.flag⟩
  | out σ _ h1 h2 _ _ h5 h6 =>
    refine ⟨fun l hl => ?_, fun h' => (by rw [h2] at h'; cases h'), fun _ _ => (by rw [h5]; omega), fun hi => ?_⟩
    · rw [h5]; rcases h.running h1 l hl with h' | h' <;> omega
    · rw [h6] at hi
      obtain ⟨l, hl, hn⟩ := h.flag hi
      rcases h.running h1 l hl with h' | h' <;> omega
  | goOn σ h1 h2 _ h4 h5 h6 =>
    exact ⟨by rw [h4]; exact h.all, fun _ l hl => by rw [h4]; exact .inr (h6 l hl), fun σ hσ => (by rw [h2] at hσ; cases hσ),
      by rw [h4, h5]; exact h.flag⟩
  | limit σ l h1 h2 h3 h4 _ h6 _ =>
    refine ⟨by rw [h6]; exact h.all, fun h' => (by rw [h2] at h'; cases h'), fun σ hσ => (by rw [h2] at hσ; cases hσ), fun _ => ⟨l, h3, ?_⟩⟩
    have := h.all l h3
    have := h.suspended σ h1
    rw [h6]; omega
  | timeout _ _ h2 _ _ _ h6 h7 =>
    exact ⟨by rw [h6]; exact h.all, fun h' => (by rw [h2] at h'; cases h'), fun σ hσ => (by rw [h2] at hσ; cases hσ), fun hi => (by rw [h7] at hi; cases hi)⟩
  | stop h1 _ _ h4 h5 =>
    exact ⟨by rw [h4]; exact h.all, fun h' => (by rw [h'] at h1; exact h1.elim), fun σ hσ => (by rw [hσ] at h1; exact h1.elim), by rw [h4, h5]; exact h.flag⟩

theorem within_run (a : SolveArgs) (hs : ∀ l, (a.shuffle l).Perm l) (m : Model) (act : Heap → Subst → Res Heap) (h : Heap) (n : Nat) :
    Within a.cfg (solveRun a m act n h).2.1 ∧ (solveRun a m act n h).2.1.num = (solveRun a m act n h).1.length := by
  obtain ⟨h1, h2, h3, h4, _⟩ := start_ok a hs m h
  have hnum := (run_invariant a.cfg (candidates (startSolve a m h).2.1) act n _ (startSolve a m h).1 _ h1 h2 (by rw [h3]; intro h; exact absurd rfl h)).2.2.1
  rw [h4, Nat.zero_add] at hnum
  refine ⟨?_, hnum⟩
  have h0 : Within a.cfg (startSolve a m h).2.2 := by
    refine ⟨fun l _ => by rw [h4]; omega, fun _ _ _ => .inl h4, fun σ hσ => ?_, fun hi => by rw [h3] at hi; cases hi⟩
    cases startCase (a := a) m h hs with
    | idle e _ => rw [e] at hσ; cases hσ
    | fail _ e _ _ => rw [e] at hσ; cases hσ
    | go _ _ _ _ e _ _ => rw [e] at hσ; cases hσ
  suffices ∀ n (g : Gen) (s : Heap), TimerOk g → Within a.cfg g → Within a.cfg (sysRun a.cfg (candidates (startSolve a m h).2.1) act n g s).2.1 from
    this n (startSolve a m h).2.2 (startSolve a m h).1 h1 h0
  intro n
  induction n with
  | zero => intro g s _ hg; exact hg
  | succ n ih =>
    intro g s hok hg
    rw [sysRun_succ]
    exact ih _ _ (StepKind.timerOk _ (step_kind _ _ _ g s hok) hok) (within_step _ _ _ hok hg)

/-- C20, whatever the consumer does between two solutions (so also for `optimize`): never more solutions than the limit (but for a limit below 1, which counts
as 1), and "limit" is reported only if there is a limit and exactly that many solutions have been handed out. -/
theorem C20_any_consumer (a : SolveArgs) (hs : ∀ l, (a.shuffle l).Perm l) (m : Model) (act : Heap → Subst → Res Heap) (h : Heap) (n : Nat) :
    (∀ l, a.solver.limit = some l → (solveRun a m act n h).1.length ≤ max 1 l.toNat) ∧
    ((solveRun a m act n h).2.1.interrupt = some .limit → ∃ l, a.solver.limit = some l ∧ (solveRun a m act n h).1.length = max 1 l.toNat) := by
  obtain ⟨h1, h2⟩ := within_run a hs m act h n
  rw [← h2]
  exact ⟨h1.all, h1.flag⟩

/-- A consumer that changes the heap: the hypotheses are met and the limit is reported. -/
example : (solveRun { exArgs with solver := { limit := some 1 } } exModel (fun h _ => .ok (h.setParam 0 7)) 12 exHeap).2.1.interrupt = some .limit ∧
    (solveRun { exArgs with solver := { limit := some 1 } } exModel (fun h _ => .ok (h.setParam 0 7)) 12 exHeap).1.length = 1 := by decide

/-- C21: whatever the clock, what is handed out under a timeout is a prefix of what is handed out without; if
the iteration ends without being interrupted by the timeout it is the same iteration. -/
theorem C21_timeout (a : SolveArgs) (hs : ∀ l, (a.shuffle l).Perm l) (m : Model) (hn : m.vars.keys.Nodup) (h : Heap)
    (lim : Option Int) (clk clk' : Nat → Int) (t : Int) (n n' : Nat)
    (hend : (solveRun (a.cut lim none clk) m passive n h).2.1.phase.terminal) :
    let full := solveRun (a.cut lim none clk) m passive n h
    let cut := solveRun (a.cut lim (some t) clk') m passive n' h
    cut.1 <+: full.1 ∧
    (cut.2.1.phase.terminal → cut.2.1.interrupt ≠ some .timeout →
      cut.1 = full.1 ∧ cut.2.1.phase = full.2.1.phase ∧ cut.2.1.interrupt = full.2.1.interrupt) := by
  obtain ⟨D, ph, ho⟩ := outcome a m h hs hn
  obtain ⟨N, hN, hc⟩ := ho lim none clk
  obtain ⟨N', hN', hc'⟩ := ho lim (some t) clk'
  rw [over_unique hN hend] at hc
  intro full cut
  have key : (solveRun (a.cut lim (some t) clk') m passive N' h).1 <+: full.1 ∧
      ((solveRun (a.cut lim (some t) clk') m passive N' h).2.1.interrupt ≠ some .timeout →
      (solveRun (a.cut lim (some t) clk') m passive N' h).1 = full.1 ∧
      (solveRun (a.cut lim (some t) clk') m passive N' h).2.1.phase = full.2.1.phase ∧
      (solveRun (a.cut lim (some t) clk') m passive N' h).2.1.interrupt = full.2.1.interrupt) := by
    have hlen : ∀ (o o' : List Subst), o <+: D → o' <+: D → o.length ≤ o'.length → o <+: o' := by
      intro o o' h1 h2 h3; exact List.prefix_of_prefix_length_le h1 h2 h3
    cases hc with
    | timeout _ _ _ h4 => cases h4
    | natural h1 h2 h3 h4 =>
      cases hc' with
      | natural h1' h2' h3' _ =>
        exact ⟨by rw [h1']; show D <+: full.1; rw [h1]; exact List.prefix_rfl, fun _ => ⟨h1'.trans h1.symm, h2'.trans h2.symm, h3'.trans h3.symm⟩⟩
      | timeout h1' _ h3' _ _ => exact ⟨by show _ <+: full.1; rw [h1]; exact h1', fun h => absurd h3' h⟩
      | limit l h1' h2' h3' h4' h5' =>
        exfalso
        have hle := h1'.length_le
        rw [h5'] at hle
        rw [h1] at h4
        rcases h4 with h4 | h4
        · rw [h4] at hle; simp at hle
        · have := h4 l h4'; omega
    | limit l h1 h2 h3 h4 h5 =>
      cases hc' with
      | natural h1' h2' h3' h4' =>
        exfalso
        have hle := h1.length_le
        rw [h5] at hle
        rw [h1'] at h4'
        rcases h4' with h4' | h4'
        · rw [h4'] at hle; simp at hle
        · have := h4' l h4; omega
      | timeout h1' _ h3' _ h5' =>
        refine ⟨hlen _ _ h1' h1 ?_, fun h => absurd h3' h⟩
        show _ ≤ full.1.length
        rw [h5]
        rcases h5' with h5' | h5'
        · rw [h5']; simp
        · have := h5' l h4; omega
      | limit l' h1' h2' h3' h4' h5' =>
        rw [h4] at h4'; cases h4'
        have heq : (solveRun (a.cut lim (some t) clk') m passive N' h).1 = full.1 :=
          (hlen _ _ h1' h1 (by show _ ≤ full.1.length; rw [h5, h5'])).eq_of_length (by show _ = full.1.length; rw [h5, h5'])
        exact ⟨by rw [heq]; exact List.prefix_rfl, fun _ => ⟨heq, h2'.trans h2.symm, h3'.trans h3.symm⟩⟩
  constructor
  · exact (prefix_of_over hN').trans key.1
  · intro ht
    have : cut = solveRun (a.cut lim (some t) clk') m passive N' h := over_unique ht hN'
    rw [this]; exact key.2

/-- A clock that jumps by 10 at every reading: timeout 15 is exceeded after the first solution. -/
example : (solveRun (exArgs.cut none (some 35) fun k => 10 * k) exModel passive 12 exHeap).1 = [[("y", 3), ("x", 1)]] ∧
    (solveRun (exArgs.cut none (some 35) fun k => 10 * k) exModel passive 12 exHeap).2.1.interrupt = some .timeout := by decide

/-- The timeout is reported only if the time spent searching, at the last reading of the clock, exceeds it. -/
theorem C21_genuine (a : SolveArgs) (hs : ∀ l, (a.shuffle l).Perm l) (m : Model) (act : Heap → Subst → Res Heap) (h : Heap) (n : Nat)
    (hi : (solveRun a m act n h).2.1.interrupt = some .timeout) :
    ∃ t, a.solver.timeout = some t ∧
      (solveRun a m act n h).2.1.timer.elapsedAt (a.clock ((solveRun a m act n h).2.1.tick - 1)) > t := by
  obtain ⟨h1, h2, h3, _⟩ := start_ok a hs m h
  suffices ∀ n (g : Gen) (s : Heap), TimerOk g → g.interrupt ≠ some .timeout ∨ (∃ t, a.solver.timeout = some t ∧
      g.timer.elapsedAt (a.clock (g.tick - 1)) > t) ∧ g.phase = .finished →
      (sysRun a.cfg (candidates (startSolve a m h).2.1) act n g s).2.1.interrupt = some .timeout →
      ∃ t, a.solver.timeout = some t ∧ (sysRun a.cfg (candidates (startSolve a m h).2.1) act n g s).2.1.timer.elapsedAt
        (a.clock ((sysRun a.cfg (candidates (startSolve a m h).2.1) act n g s).2.1.tick - 1)) > t by
    have h4 : (startSolve a m h).2.2.interrupt ≠ some .timeout := by simp [h3]
    exact this n (startSolve a m h).2.2 (startSolve a m h).1 h1 (.inl h4) hi
  intro n
  induction n with
  | zero =>
    intro g s _ hg hi
    rcases hg with hg | hg
    · exact absurd hi hg
    · exact hg.1
  | succ n ih =>
    intro g s hok hg hi
    have hk := step_kind a.cfg (candidates (startSolve a m h).2.1) act g s hok
    rw [sysRun_succ] at hi ⊢
    refine ih _ _ (StepKind.timerOk _ hk hok) ?_ hi
    rcases hg with hg | hg
    · cases hk with
      | search h1 h2 h3 h4 h5 => left; rw [h5]; exact hg
      | out _ _ h1 h2 h3 h4 h5 h6 => left; rw [h6]; exact hg
      | goOn _ h1 h2 h3 h4 h5 => left; rw [h5]; exact hg
      | limit _ _ _ _ _ _ _ _ h7 => left; rw [h7]; simp
      | timeout t h1 h2 h3 h4 h5 h6 h7 => right; rw [h5]; exact ⟨⟨t, h3, h4⟩, h2⟩
      | stop _ _ _ _ h5 => left; rw [h5]; exact hg
    · right
      have : sysStep a.cfg (candidates (startSolve a m h).2.1) act g s = (g, s) := by simp [sysStep, hg.2]
      rw [this]; exact hg

/-! ## C22 -/

/-- C22: at every point of the iteration, whatever the clock and the consumer do: the timer runs iff the search has
control, the count is the number of solutions handed out, and the elapsed time reported is the time between
getting control and handing out a solution, summed over the solutions handed out (`searchTime`). -/
theorem C22_stats (a : SolveArgs) (hs : ∀ l, (a.shuffle l).Perm l) (m : Model) (act : Heap → Subst → Res Heap) (h : Heap) (n : Nat) :
    let r := solveRun a m act n h
    (r.2.1.phase = .running → r.2.1.timer.running = true) ∧
    (∀ σ, r.2.1.phase = .suspended σ → r.2.1.timer.running = false) ∧
    r.2.1.timer.stats = (r.1.length,
      searchTime a.cfg (candidates (startSolve a m h).2.1) act n (startSolve a m h).2.2 (startSolve a m h).1 (a.clock 0)) := by
  obtain ⟨h1, h2, h3, h4, h5, h6⟩ := start_ok a hs m h
  obtain ⟨i1, i2, i3, i4, i5⟩ := run_invariant a.cfg (candidates (startSolve a m h).2.1) act n _ (startSolve a m h).1 _ h1 h2
    (by rw [h3]; intro h; exact absurd rfl h)
  refine ⟨?_, ?_, ?_⟩
  · intro hp
    rw [solveRun_eq] at hp ⊢
    simp only [TimerOk, hp] at i1
    obtain ⟨t, ht⟩ := i1
    simp [Timer.running, ht]
  · intro σ hp
    rw [solveRun_eq] at hp ⊢
    simp only [TimerOk, hp] at i1
    simp [Timer.running, i1]
  · rw [solveRun_eq]
    simp only [Timer.stats, i4, i5, h5, h6, Nat.zero_add, Int.zero_add]

/-- The statement of C22 without the last segment: the time from the last solution to the end of the search is not
reported, because the timer is neither stopped nor read when the search ends. Here the search runs into its timeout
of 5 after 10 units of time without finding a solution, and 0 is reported. -/
theorem C22_refuted :
    let r := solveRun (exArgs.cut none (some 5) fun k => 10 * k) exModel passive 12 exHeap
    r.2.1.interrupt = some .timeout ∧ r.1 = [] ∧ r.2.1.timer.stats = (0, 0) ∧ r.2.1.timer.elapsedAt 10 = 10 := by decide

/-- Two solutions, clock readings 0 (start), 10 (first solution), 20 (resumed), 30 (second solution). -/
example : (solveRun (exArgs.cut none none fun k => 10 * k) exModel passive 12 exHeap).2.1.timer.stats = (2, 20) := by decide

end Satisfy.Props
