import Verif.Settings
import Verif.Props.Limits
import Verif.SpecPuzzle
/-!
# `INFINITY` and `None` as settings: C57
-/

namespace Satisfy.Props
open Satisfy

/-- What a setting means: no bound, or the number. -/
def Setting.bound : Setting → Option Int
  | .num n => some n
  | _ => none

theorem raw_step {S : Type} {cfg : RawCfg} {cfg' : RunCfg} (ht : cfg.timeout = .ofStored cfg'.timeout) (hl : cfg.limit = .ofStored cfg'.limit)
    (hc : cfg.clock = cfg'.clock) (cand : S → Name → Subst → Res (List Int)) (act : S → Subst → Res S) (g : Gen) (s : S) :
    rawStep cfg cand act g s = sysStep cfg' cand act g s := by
  obtain ⟨t, l, c⟩ := cfg
  obtain ⟨t', l', c'⟩ := cfg'
  simp only at ht hl hc
  subst ht; subst hl; subst hc
  unfold rawStep sysStep
  cases g.phase with
  | running =>
    simp only [Prod.mk.injEq, and_true]
    unfold Gen.rawLoop Gen.loop Gen.rawTimedOut Gen.timedOut
    cases t' with
    | none => simp only [Setting.ofStored]; rfl
    | some t' =>
      simp only [Setting.ofStored]
      by_cases h : g.timer.elapsedAt (c g.tick) > t'
      · simp only [h, decide_true]; rfl
      · simp only [h, decide_false]; rfl
  | suspended σ =>
    simp only
    cases act s σ with
    | error e => rfl
    | ok s' =>
      simp only [Prod.mk.injEq, and_true]
      unfold Gen.rawResume Gen.resume Gen.rawReached
      cases l' with
      | none => simp [Setting.ofStored]
      | some l' =>
        simp only [Setting.ofStored]
        by_cases h : (g.num : Int) ≥ l' <;> simp [h]
  | finished => rfl
  | raised e => rfl

theorem raw_run {S : Type} {cfg : RawCfg} {cfg' : RunCfg} (ht : cfg.timeout = .ofStored cfg'.timeout) (hl : cfg.limit = .ofStored cfg'.limit)
    (hc : cfg.clock = cfg'.clock) (cand : S → Name → Subst → Res (List Int)) (act : S → Subst → Res S) (n : Nat) (g : Gen) (s : S) :
    rawSysRun cfg cand act n g s = sysRun cfg' cand act n g s := by
  induction n generalizing g s with
  | zero => rfl
  | succ n ih =>
    rw [rawSysRun, sysRun, raw_step ht hl hc]
    simp only [ih]
    rfl

/-- C57 (missing: `INFINITY` as an argument): arguments that are not `INFINITY` mean what they say, and win over the settings of the solver: `None` lifts the solver's bound. -/
theorem C57_partial (a : SolveArgs) (args : CallArgs) (ht : args.timeout ≠ some .infinity) (hl : args.limit ≠ some .infinity) (m : Model)
    (act : Heap → Subst → Res Heap) (n : Nat) (h : Heap) :
    callRun a args m act n h = solveRun (a.cut ((args.limit.map Setting.bound).getD a.solver.limit)
      ((args.timeout.map Setting.bound).getD a.solver.timeout) a.clock) m act n h := by
  unfold callRun solveRun
  have hst : startSolve (a.cut ((args.limit.map Setting.bound).getD a.solver.limit)
      ((args.timeout.map Setting.bound).getD a.solver.timeout) a.clock) m h = startSolve a m h := rfl
  rw [hst]
  refine raw_run ?_ ?_ rfl _ _ _ _ _
  · obtain ⟨t, l⟩ := args
    cases t with
    | none => rfl
    | some t => cases t <;> first | rfl | exact absurd rfl ht
  · obtain ⟨t, l⟩ := args
    cases l with
    | none => rfl
    | some l => cases l <;> first | rfl | exact absurd rfl hl

/-- C57: in the constructor, `INFINITY` is the same as `None`: no bound. -/
theorem C57_constructor (a : SolveArgs) (timeout limit : Setting) (m : Model) (act : Heap → Subst → Res Heap) (n : Nat) (h : Heap) :
    callRun { a with solver := a.solver.make timeout limit } {} m act n h =
      solveRun (a.cut (Setting.bound limit) (Setting.bound timeout) a.clock) m act n h := by
  rw [C57_partial _ _ (by simp) (by simp)]
  cases timeout <;> cases limit <;> rfl

/-! ## `INFINITY` as an argument of the call -/

theorem raw_timeout {S : Type} {cfg : RawCfg} (ht : cfg.timeout = .infinity) (cand : S → Name → Subst → Res (List Int)) (act : S → Subst → Res S)
    (n : Nat) (g : Gen) (s : S) (hg : g.phase = .running) (hne : g.search.stack ≠ []) :
    rawSysRun cfg cand act (n + 1) g s = ([], { g with phase := .raised .typeError, tick := g.tick + 1 }, s) := by
  have hstay : ∀ (n : Nat) (g : Gen), g.phase = .raised .typeError → rawSysRun cfg cand act n g s = ([], g, s) := by
    intro n
    induction n with
    | zero => intro g _; rfl
    | succ n ih =>
      intro g hg
      rw [rawSysRun, rawStep, hg]
      simp only [ih g hg]
      rfl
  rw [rawSysRun, rawStep, hg]
  have : g.rawLoop cfg (cand s) = { g with phase := .raised .typeError, tick := g.tick + 1 } := by
    unfold Gen.rawLoop Gen.rawTimedOut
    have : g.search.stack.isEmpty = false := by cases h : g.search.stack <;> simp_all
    simp [this, ht]
  simp only [this]
  rw [hstay n { g with phase := .raised .typeError, tick := g.tick + 1 } rfl]
  rfl

/-- C57: `timeout=INFINITY` in the call: `TypeError` before anything is found, if there is anything to search at all. -/
theorem C57_timeout_infinity (a : SolveArgs) (hs : ∀ l, (a.shuffle l).Perm l) (limit : Option Setting) (m : Model) (act : Heap → Subst → Res Heap)
    (n : Nat) (h : Heap) (hsol : m.solvable = true) (hvars : m.pureVars.keys ≠ []) :
    (callRun a ⟨some .infinity, limit⟩ m act (n + 1) h).1 = [] ∧
      ∃ e, (callRun a ⟨some .infinity, limit⟩ m act (n + 1) h).2.1.phase = .raised e ∧
        (e = .typeError ∨ (setup a.solver.compile m a.adds h).2 = .error e) := by
  unfold callRun
  cases startCase (a := a) m h hs with
  | idle _ h2 =>
    rcases h2 with h2 | h2
    · rw [hsol] at h2; cases h2
    · exact absurd h2 hvars
  | fail e h1 _ hset =>
    have hstay : ∀ (n : Nat) (cfg : RawCfg) cand (s : Heap), rawSysRun cfg cand act n (Gen.idle (.raised e)) s = ([], Gen.idle (.raised e), s) := by
      intro n cfg cand
      induction n with
      | zero => intro s; rfl
      | succ n ih =>
        intro s
        rw [rawSysRun, rawStep]
        simp only [Gen.idle] at ih ⊢
        simp only [ih]
        rfl
    simp only [h1, hstay]
    exact ⟨trivial, e, rfl, .inr hset⟩
  | go H info _ hset hst hne hp =>
    rw [hst]
    simp only
    rw [raw_timeout rfl _ _ _ _ _ rfl]
    · exact ⟨rfl, _, rfl, .inl rfl⟩
    · simp [Gen.first]

theorem abort_ok (t : Timer) (now : Int) : ∃ t', t.abort now = .ok t' := by
  unfold Timer.abort Timer.doStop
  by_cases h : t.running
  · simp only [h]
    unfold Timer.running at h
    cases hs : t.start with
    | none => rw [hs] at h; cases h
    | some s => exact ⟨_, rfl⟩
  · exact ⟨t, by simp [h]⟩

/-- `limit=INFINITY` runs as `limit=1`, but for the end. -/
theorem raw_limit {S : Type} {cfg : RawCfg} {cfg' : RunCfg} (ht : cfg.timeout = .ofStored cfg'.timeout) (hl : cfg.limit = .infinity)
    (hl' : cfg'.limit = some 1) (hc : cfg.clock = cfg'.clock) (cand : S → Name → Subst → Res (List Int)) (act : S → Subst → Res S) (n : Nat) (g : Gen)
    (s : S) (hg : ∀ σ, g.phase = .suspended σ → 0 < g.num) (hi : g.interrupt ≠ some .limit) :
    (rawSysRun cfg cand act n g s).1 = (sysRun cfg' cand act n g s).1 ∧
      ((rawSysRun cfg cand act n g s).2.1 = (sysRun cfg' cand act n g s).2.1 ∧ (sysRun cfg' cand act n g s).2.1.interrupt ≠ some .limit ∨
       (rawSysRun cfg cand act n g s).2.1.phase = .raised .typeError ∧ (sysRun cfg' cand act n g s).2.1.phase = .finished ∧
         (sysRun cfg' cand act n g s).2.1.interrupt = some .limit) := by
  have hstay : ∀ (n : Nat) (g : Gen) (s : S), g.phase = .raised .typeError → rawSysRun cfg cand act n g s = ([], g, s) := by
    intro n
    induction n with
    | zero => intro g s _; rfl
    | succ n ih =>
      intro g s hg
      rw [rawSysRun, rawStep, hg]
      simp only [ih g s hg]
      rfl
  induction n generalizing g s with
  | zero => exact ⟨rfl, .inl ⟨rfl, hi⟩⟩
  | succ n ih =>
    rw [rawSysRun, sysRun]
    cases hph : g.phase with
    | running =>
      have hstep : rawStep cfg cand act g s = sysStep cfg' cand act g s := by
        rw [← raw_step (cfg := ⟨.ofStored cfg'.timeout, .ofStored cfg'.limit, cfg'.clock⟩) rfl rfl rfl]
        unfold rawStep
        rw [hph]
        unfold Gen.rawLoop Gen.rawTimedOut
        rw [ht, hc]
      rw [hstep]
      have hg' : ∀ σ, (sysStep cfg' cand act g s).1.phase = .suspended σ → 0 < (sysStep cfg' cand act g s).1.num := by
        intro σ
        unfold sysStep
        rw [hph]
        simp only
        unfold Gen.loop Gen.withTimer
        split
        · nofun
        · split
          · nofun
          · simp only
            split
            · nofun
            · nofun
            · intro h
              have : g.phase = .suspended σ := by
                split at h <;> exact h
              rw [hph] at this; cases this
            · split
              · intro _; simp
              · nofun
      have hi' : (sysStep cfg' cand act g s).1.interrupt ≠ some .limit := by
        unfold sysStep
        rw [hph]
        simp only
        unfold Gen.loop Gen.withTimer
        split
        · exact hi
        · split
          · nofun
          · simp only
            have hi2 : (if cfg'.timeout.isSome = true then { g with tick := g.tick + 1 } else g).interrupt ≠ some .limit := by
              split <;> exact hi
            split
            · exact hi2
            · exact hi2
            · exact hi2
            · split <;> exact hi2
      have := ih _ (sysStep cfg' cand act g s).2 hg' hi'
      exact ⟨by simp only [this.1], this.2⟩
    | suspended σ =>
      have hnum := hg σ hph
      unfold rawStep sysStep
      rw [hph]
      simp only
      cases act s σ with
      | error e =>
        simp only
        have := ih { g with phase := .raised e } s (by nofun) hi
        exact ⟨by simp only [this.1], this.2⟩
      | ok s' =>
        simp only
        have h1 : g.rawResume cfg = { g with phase := .raised .typeError } := by
          unfold Gen.rawResume Gen.rawReached
          rw [hl]
        have h2 : (g.resume cfg').phase = .finished ∧ (g.resume cfg').interrupt = some .limit := by
          unfold Gen.resume
          rw [hl']
          have : ((g.num : Int) ≥ 1) := by omega
          simp only [this, decide_true, if_true]
          obtain ⟨t, htt⟩ := abort_ok g.timer (cfg'.clock g.tick)
          rw [htt]
          exact ⟨rfl, rfl⟩
        rw [h1, hstay n { g with phase := .raised .typeError } s' rfl,
          sysRun_terminal cfg' cand act (g := g.resume cfg') (by rw [h2.1]; trivial) n s']
        exact ⟨rfl, .inr ⟨rfl, h2⟩⟩
    | finished =>
      have hstep : rawStep cfg cand act g s = sysStep cfg' cand act g s := by unfold rawStep sysStep; rw [hph]
      have hsame : sysStep cfg' cand act g s = (g, s) := by unfold sysStep; rw [hph]
      rw [hstep, hsame]
      have := ih g s hg hi
      exact ⟨by simp only [this.1], this.2⟩
    | raised e =>
      have hstep : rawStep cfg cand act g s = sysStep cfg' cand act g s := by unfold rawStep sysStep; rw [hph]
      have hsame : sysStep cfg' cand act g s = (g, s) := by unfold sysStep; rw [hph]
      rw [hstep, hsame]
      have := ih g s hg hi
      exact ⟨by simp only [this.1], this.2⟩

/-- C57: `limit=INFINITY` in the call (without a timeout): if the search without a limit finds something, its first solution is handed out and asking for
the second raises `TypeError`; if it finds nothing, nothing is different. -/
theorem C57_limit_infinity (a : SolveArgs) (hs : ∀ l, (a.shuffle l).Perm l) (m : Model) (h : Heap) (hn : m.vars.keys.Nodup)
    {n : Nat} (hend : (callRun a ⟨some .none, some .none⟩ m passive n h).2.1.phase.terminal) :
    let full := callRun a ⟨some .none, some .none⟩ m passive n h
    ∃ N, ∀ k ≥ N, (callRun a ⟨some .none, some .infinity⟩ m passive k h).1 = full.1.take 1 ∧
      (callRun a ⟨some .none, some .infinity⟩ m passive k h).2.1.phase = if full.1 = [] then full.2.1.phase else .raised .typeError := by
  rw [C57_partial _ _ (by simp) (by simp)] at hend ⊢
  intro full
  obtain ⟨D, ph, ho⟩ := outcome a m h hs hn
  obtain ⟨M, hM, hc⟩ := ho none none a.clock
  obtain ⟨N, hN, hc'⟩ := ho (some 1) none a.clock
  have hfull : full = solveRun (a.cut none none a.clock) m passive M h := over_unique hend hM
  rw [← hfull] at hc
  have hD : full.1 = D ∧ full.2.1.phase = ph := by
    cases hc with
    | natural h1 h2 _ _ => exact ⟨h1, h2⟩
    | timeout _ _ _ h4 => cases h4
    | limit _ _ _ _ h4 => cases h4
  refine ⟨N, fun k hk => ?_⟩
  have hstab : solveRun (a.cut (some 1) none a.clock) m passive k h = solveRun (a.cut (some 1) none a.clock) m passive N h :=
    sysRun_stable _ _ _ hk _ _ hN
  have key := raw_limit (cfg := ⟨.none, .infinity, a.clock⟩) (cfg' := ⟨none, some 1, a.clock⟩) rfl rfl rfl rfl
    (candidates (startSolve a m h).2.1) passive k (startSolve a m h).2.2 (startSolve a m h).1 (by
      intro σ hσ
      cases startCase (a := a) m h hs with
      | idle h1 _ => rw [h1] at hσ; cases hσ
      | fail e h1 _ _ => rw [h1] at hσ; cases hσ
      | go H info _ _ hst _ _ => rw [hst] at hσ; cases hσ) (by
      cases startCase (a := a) m h hs with
      | idle h1 _ => rw [h1]; nofun
      | fail e h1 _ _ => rw [h1]; nofun
      | go H info _ _ hst _ _ => rw [hst]; nofun)
  have e1 : sysRun ⟨none, some 1, a.clock⟩ (candidates (startSolve a m h).2.1) passive k (startSolve a m h).2.2 (startSolve a m h).1 =
      solveRun (a.cut (some 1) none a.clock) m passive N h := hstab
  rw [e1] at key
  have e2 : callRun a ⟨some .none, some .infinity⟩ m passive k h = rawSysRun ⟨.none, .infinity, a.clock⟩ (candidates (startSolve a m h).2.1) passive k
      (startSolve a m h).2.2 (startSolve a m h).1 := rfl
  rw [e2, key.1, hD.1, hD.2]
  cases hc' with
  | natural h1 h2 h3 h4 =>
    have hnil : D = [] := by
      rcases h4 with h4 | h4
      · rw [← h1]; exact h4
      · have := h4 1 rfl
        rw [h1] at this
        exact List.length_eq_zero_iff.1 (by omega)
    rw [h1, hnil]
    refine ⟨rfl, ?_⟩
    rcases key.2 with ⟨k2, _⟩ | ⟨_, _, k2⟩
    · rw [k2, h2]; rfl
    · rw [h3] at k2; cases k2
  | timeout _ _ _ h4 _ => cases h4
  | limit l h1 h2 h3 h4 h5 =>
    cases h4
    have h5 : (solveRun (a.cut (some 1) none a.clock) m passive N h).1.length = 1 := h5
    obtain ⟨rest, hrest⟩ := h1
    have hne : D ≠ [] := by rintro rfl; rw [List.append_eq_nil_iff] at hrest; rw [hrest.1] at h5; cases h5
    rw [if_neg hne]
    refine ⟨by rw [← hrest, List.take_append_of_le_length (by omega), List.take_of_length_le (by omega)], ?_⟩
    rcases key.2 with ⟨_, k2⟩ | ⟨k2, _⟩
    · exact absurd h3 k2
    · exact k2

/-- The full claim: `INFINITY` means no bound, also as an argument of `solve`. -/
def C57 : Prop := ∀ (a : SolveArgs) (timeout limit : Setting) (m : Model) (n : Nat) (h : Heap), (∀ l, (a.shuffle l).Perm l) → m.vars.keys.Nodup →
  callRun a ⟨some timeout, some limit⟩ m passive n h = solveRun (a.cut (Setting.bound limit) (Setting.bound timeout) a.clock) m passive n h

/-- One variable with the values 1 and 2. -/
def world57 : World := (built (addIntVariable [1, 2] (some "x")) (.var "x")).1

theorem world57_full : (callRun { solver := { limit := some 1 } } ⟨some .none, some .none⟩ world57.model passive 6 world57.heap).1 = [[("x", 1)], [("x", 2)]] ∧
    (callRun { solver := {} } ⟨some .none, some .infinity⟩ world57.model passive 6 world57.heap).1 = [[("x", 1)]] ∧
    (callRun { solver := {} } ⟨some .infinity, some .none⟩ world57.model passive 6 world57.heap).1 = [] := by decide

/-- `solver.solve(model, limit=INFINITY)` fails at the second of two solutions. -/
theorem C57_refuted : ¬ C57 := by
  intro h
  have h1 := h { solver := {} } .none .infinity world57.model 6 world57.heap (fun _ => .refl _) (by decide)
  have h2 := congrArg Prod.fst h1
  rw [world57_full.2.1] at h2
  revert h2
  decide

/-- `solver.solve(model, timeout=INFINITY)` fails at once. -/
theorem C57_refuted_timeout : ¬ C57 := by
  intro h
  have h1 := h { solver := {} } .infinity .none world57.model 6 world57.heap (fun _ => .refl _) (by decide)
  have h2 := congrArg Prod.fst h1
  rw [world57_full.2.2] at h2
  revert h2
  decide

-- the hypotheses of the theorems above
example : world57.model.vars.keys.Nodup ∧ world57.model.solvable = true ∧ world57.model.pureVars.keys = ["x"] ∧
    (callRun { solver := {} } ⟨some .none, some .none⟩ world57.model passive 7 world57.heap).2.1.phase = .finished := ⟨by decide, by decide, by decide, by rfl⟩

end Satisfy.Props
