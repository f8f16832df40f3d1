import Verif.Props.Limits
import Mathlib.Algebra.BigOperators.Group.List.Basic
/-! C52: the search does not run much longer than its timeout. -/

namespace Satisfy.Props

/-- The time of the last reading of the clock before step `k`. -/
def lastReading (a : SolveArgs) (m : Model) (act : Heap → Subst → Res Heap) (h : Heap) (k : Nat) : Int :=
  a.clock ((solveRun a m act k h).2.1.tick - 1)

/-- The time that passed in step `k`, if the search had control (and not the consumer). -/
def passTime (a : SolveArgs) (m : Model) (act : Heap → Subst → Res Heap) (h : Heap) (k : Nat) : Int :=
  match (solveRun a m act k h).2.1.phase with
  | .running => lastReading a m act h (k + 1) - lastReading a m act h k
  | _ => 0

/-- The time the search has had control in the first `n` steps. -/
def spent (a : SolveArgs) (m : Model) (act : Heap → Subst → Res Heap) (h : Heap) (n : Nat) : Int :=
  ((List.range n).map (passTime a m act h)).sum

theorem spent_succ (a : SolveArgs) (m : Model) (act : Heap → Subst → Res Heap) (h : Heap) (n : Nat) :
    spent a m act h (n + 1) = spent a m act h n + passTime a m act h n := by
  simp [spent, List.range_succ]

theorem solveRun_step (a : SolveArgs) (m : Model) (act : Heap → Subst → Res Heap) (h : Heap) (n : Nat) :
    (solveRun a m act (n + 1) h).2 = sysStep a.cfg (candidates (startSolve a m h).2.1) act (solveRun a m act n h).2.1 (solveRun a m act n h).2.2 := by
  rw [solveRun_eq, sysRun_add]; rfl

/-- What the timer shows, and how much it may show. -/
structure Timely (a : SolveArgs) (T δ : Int) (g : Gen) (sp : Int) : Prop where
  run : g.phase = .running → 1 ≤ g.tick ∧ ∃ t0, g.timer.start = some t0 ∧ g.timer.elapsed + (a.clock (g.tick - 1) - t0) = sp
  sus : ∀ σ, g.phase = .suspended σ → 1 ≤ g.tick ∧ g.timer.start = none ∧ g.timer.elapsed = sp
  soft : ¬ g.phase.terminal → sp ≤ T + δ
  hard : sp ≤ T + 2 * δ

theorem timely_step {a : SolveArgs} {m : Model} {act : Heap → Subst → Res Heap} {h : Heap} {t δ : Int} (ht : a.solver.timeout = some t)
    (hmono : ∀ k, a.clock k ≤ a.clock (k + 1)) (hδ : 0 ≤ δ) (n : Nat) (hn : passTime a m act h n ≤ δ)
    (hi : Timely a (max t 0) δ (solveRun a m act n h).2.1 (spent a m act h n)) :
    Timely a (max t 0) δ (solveRun a m act (n + 1) h).2.1 (spent a m act h (n + 1)) := by
  rw [spent_succ]
  have hstep := solveRun_step a m act h n
  unfold passTime lastReading at hn ⊢
  rw [hstep] at hn ⊢
  generalize solveRun a m act n h = r at hn hi ⊢
  obtain ⟨out, g, s⟩ := r
  generalize spent a m act h n = sp at hi ⊢
  simp only at hn hi ⊢
  have hT : t ≤ max t 0 := le_max_left _ _
  cases hp : g.phase with
  | finished =>
    have : sysStep a.cfg (candidates (startSolve a m h).2.1) act g s = (g, s) := by simp [sysStep, hp]
    rw [this]; simpa using hi
  | raised e =>
    have : sysStep a.cfg (candidates (startSolve a m h).2.1) act g s = (g, s) := by simp [sysStep, hp]
    rw [this]; simpa using hi
  | suspended σ =>
    obtain ⟨h1, h2, h3⟩ := hi.sus σ hp
    have hsoft := hi.soft (by rw [hp]; exact id)
    simp only [sysStep, hp, add_zero]
    cases act s σ with
    | error e => exact ⟨fun h => (by cases h), fun _ h => (by cases h), fun h => absurd trivial h, hi.hard⟩
    | ok s' =>
      simp only
      by_cases hl : ∀ l, a.cfg.limit = some l → (g.num : Int) < l
      · rw [resume_go a.cfg hl h2]
        refine ⟨fun _ => ⟨by simp, _, rfl, ?_⟩, fun _ h => (by cases h), fun _ => hsoft, hi.hard⟩
        show g.timer.elapsed + (a.clock (g.tick + 1 - 1) - a.clock g.tick) = sp
        simp [h3]
      · have hfin : (g.resume a.cfg).phase = .finished := by
          have : ∃ l, a.cfg.limit = some l ∧ ¬ (g.num : Int) < l := by
            by_contra hc; exact hl (fun l h => by by_contra h'; exact hc ⟨l, h, h'⟩)
          obtain ⟨l, hl1, hl2⟩ := this
          have : (g.num : Int) ≥ l := by omega
          simp [Gen.resume, hl1, this, Gen.withTimer, Timer.abort, Timer.running, h2]
        refine ⟨fun h => ?_, fun _ h => ?_, fun h => ?_, hi.hard⟩
        · rw [hfin] at h; cases h
        · rw [hfin] at h; cases h
        · rw [hfin] at h; exact absurd trivial h
  | running =>
    obtain ⟨h1, t0, h2, h3⟩ := hi.run hp
    have hsoft := hi.soft (by rw [hp]; exact id)
    rw [hp] at hn
    have hm1 : a.clock (g.tick - 1) ≤ a.clock g.tick := by
      have := hmono (g.tick - 1); rwa [Nat.sub_add_cancel h1] at this
    have hm2 := hmono g.tick
    have hcfg : a.cfg.timeout = some t := ht
    have hclk : a.cfg.clock = a.clock := rfl
    simp only [sysStep, hp] at hn ⊢
    by_cases hne : g.search.stack.isEmpty = true
    · have hl : g.loop a.cfg (candidates (startSolve a m h).2.1 s) = { g with phase := .finished } := by simp [Gen.loop, hne]
      rw [hl] at hn ⊢
      exact ⟨fun h => (by cases h), fun _ h => (by cases h), fun h => absurd trivial h, by simpa using hi.hard⟩
    · have hne : g.search.stack.isEmpty = false := by simpa using hne
      by_cases hto : g.timedOut a.cfg = true
      · rw [loop_timeout a.cfg hne hto] at hn ⊢
        refine ⟨fun h => (by cases h), fun _ h => (by cases h), fun h => absurd trivial h, ?_⟩
        simp only [Nat.add_sub_cancel] at hn ⊢
        omega
      · have hto' : g.timer.elapsed + (a.clock g.tick - t0) ≤ t := by
          simp only [Gen.timedOut, hcfg, Timer.elapsedAt, h2, hclk, decide_eq_true_eq] at hto
          omega
        have hto : g.timedOut a.cfg = false := by simpa using hto
        have hl : g.loop a.cfg (candidates (startSolve a m h).2.1 s) = match g.search.step (candidates (startSolve a m h).2.1 s) with
            | .done => { g with tick := g.tick + 1, phase := .finished }
            | .raised e => { g with tick := g.tick + 1, phase := .raised e }
            | .silent s' => { g with tick := g.tick + 1, search := s' }
            | .yield σ s' => { g with tick := g.tick + 2, timer := ⟨g.timer.elapsed + (a.clock (g.tick + 1) - t0), none, g.timer.count + 1⟩,
                                      search := s', num := g.num + 1, phase := .suspended σ } := by
          simp only [Gen.loop, hne, hto, hcfg]
          simp only [Bool.false_eq_true, if_false, Option.isSome_some, if_true]
          cases g.search.step (candidates (startSolve a m h).2.1 s) <;> simp [Gen.withTimer, Timer.doStop, h2, hclk]
        rw [hl] at hn ⊢
        generalize g.search.step (candidates (startSolve a m h).2.1 s) = ev at hn ⊢
        cases ev with
        | done =>
          refine ⟨fun h => (by cases h), fun _ h => (by cases h), fun h => absurd trivial h, ?_⟩
          simp only [Nat.add_sub_cancel] at hn ⊢; omega
        | raised e =>
          refine ⟨fun h => (by cases h), fun _ h => (by cases h), fun h => absurd trivial h, ?_⟩
          simp only [Nat.add_sub_cancel] at hn ⊢; omega
        | silent s' =>
          simp only [Nat.add_sub_cancel] at hn ⊢
          refine ⟨fun _ => ⟨by simp, t0, h2, ?_⟩, fun _ h => ?_, fun _ => ?_, ?_⟩
          · simp only [Nat.add_sub_cancel]; omega
          · simp only [hp] at h; cases h
          · omega
          · omega
        | yield σ s' =>
          have e2 : g.tick + 2 - 1 = g.tick + 1 := rfl
          simp only [e2] at hn ⊢
          refine ⟨fun h => (by cases h), fun _ _ => ⟨by simp, rfl, ?_⟩, fun _ => ?_, ?_⟩
          · simp only; omega
          · omega
          · omega

/-- C52: with timeout `t`, if the clock never goes back and no single pass of the loop takes longer than `δ`, the time during which the
search has control never exceeds `t` (or 0, if `t` is negative) by more than `2 δ`. The time taken by the consumer between two solutions
does not count. -/
theorem C52_timely {a : SolveArgs} (hs : ∀ l, (a.shuffle l).Perm l) (m : Model) (act : Heap → Subst → Res Heap) (h : Heap) {t δ : Int}
    (ht : a.solver.timeout = some t) (hmono : ∀ k, a.clock k ≤ a.clock (k + 1)) (hδ : 0 ≤ δ) (n : Nat)
    (hpass : ∀ k < n, passTime a m act h k ≤ δ) : spent a m act h n ≤ max t 0 + 2 * δ := by
  suffices Timely a (max t 0) δ (solveRun a m act n h).2.1 (spent a m act h n) from this.hard
  have hmax : 0 ≤ max t 0 := le_max_right _ _
  induction n with
  | zero =>
    have h0 : spent a m act h 0 = 0 := rfl
    rw [h0]
    show Timely a (max t 0) δ (startSolve a m h).2.2 0
    cases startCase (a := a) m h hs with
    | idle h1 _ => rw [h1]; exact ⟨fun h => (by cases h), fun _ h => (by cases h), fun h => absurd trivial h, by omega⟩
    | fail e h1 _ _ => rw [h1]; exact ⟨fun h => (by cases h), fun _ h => (by cases h), fun h => absurd trivial h, by omega⟩
    | go H info _ _ hst _ _ =>
      rw [hst]
      exact ⟨fun _ => ⟨by simp [Gen.first], a.clock 0, rfl, by simp [Gen.first]⟩, fun _ h => (by cases h), fun _ => by omega, by omega⟩
  | succ n ih => exact timely_step ht hmono hδ n (hpass n (by omega)) (ih (fun k hk => hpass k (by omega)))

/-- A clock that advances by 10 at each reading, and a timeout of 35: passes take 10, or 20 when a solution is found (two readings); the
search had control for 40. -/
def tickArgs : SolveArgs := exArgs.cut none (some 35) fun k => 10 * k

example : (List.range 12).map (passTime tickArgs exModel passive exHeap) = [10, 20, 0, 10, 0, 0, 0, 0, 0, 0, 0, 0] ∧
    spent tickArgs exModel passive exHeap 12 = 40 ∧ (solveRun tickArgs exModel passive 12 exHeap).2.1.interrupt = some .timeout := by decide

/-- The hypotheses are met. -/
example : spent tickArgs exModel passive exHeap 12 ≤ max 35 0 + 2 * 20 := by
  refine C52_timely (a := tickArgs) (fun l => .refl _) _ _ _ rfl (fun k => ?_) (by decide) 12 (by decide)
  show (10 * (k : Int)) ≤ 10 * ((k + 1 : Nat) : Int)
  omega

/-- The bound is attained: the pass that finds the first solution begins when exactly the timeout of 10 has passed and takes 10; the next
one takes 10 and notices that the time is over. -/
example : let a := exArgs.cut none (some 10) fun k => if k = 0 then 0 else if k < 3 then 10 else if k < 5 then 20 else 30
    (∀ k < 12, passTime a exModel passive exHeap k ≤ 10) ∧ spent a exModel passive exHeap 12 = 10 + 2 * 10 := by decide

/-! ## C21: the timeout is genuine -/

/-- What the timer shows; a timeout is only reported late enough. -/
structure Shows (a : SolveArgs) (t : Int) (g : Gen) (sp : Int) : Prop where
  run : g.phase = .running → 1 ≤ g.tick ∧ ∃ t0, g.timer.start = some t0 ∧ g.timer.elapsed + (a.clock (g.tick - 1) - t0) = sp
  sus : ∀ σ, g.phase = .suspended σ → 1 ≤ g.tick ∧ g.timer.start = none ∧ g.timer.elapsed = sp
  late : g.interrupt = some .timeout → g.phase = .finished ∧ t < sp

theorem shows_step {a : SolveArgs} {m : Model} {act : Heap → Subst → Res Heap} {h : Heap} {t : Int} (ht : a.solver.timeout = some t) (n : Nat)
    (hi : Shows a t (solveRun a m act n h).2.1 (spent a m act h n)) :
    Shows a t (solveRun a m act (n + 1) h).2.1 (spent a m act h (n + 1)) := by
  rw [spent_succ]
  have hstep := solveRun_step a m act h n
  unfold passTime lastReading
  rw [hstep]
  generalize solveRun a m act n h = r at hi ⊢
  obtain ⟨out, g, s⟩ := r
  generalize spent a m act h n = sp at hi ⊢
  simp only at hi ⊢
  cases hp : g.phase with
  | finished =>
    have : sysStep a.cfg (candidates (startSolve a m h).2.1) act g s = (g, s) := by simp [sysStep, hp]
    rw [this]; simpa using hi
  | raised e =>
    have : sysStep a.cfg (candidates (startSolve a m h).2.1) act g s = (g, s) := by simp [sysStep, hp]
    rw [this]; simpa using hi
  | suspended σ =>
    obtain ⟨h1, h2, h3⟩ := hi.sus σ hp
    have hnot : g.interrupt ≠ some .timeout := fun h => by have := (hi.late h).1; rw [hp] at this; cases this
    simp only [sysStep, hp, add_zero]
    cases act s σ with
    | error e => exact ⟨fun h => (by cases h), fun _ h => (by cases h), fun h => absurd h hnot⟩
    | ok s' =>
      simp only
      by_cases hl : ∀ l, a.cfg.limit = some l → (g.num : Int) < l
      · rw [resume_go a.cfg hl h2]
        refine ⟨fun _ => ⟨by simp, _, rfl, ?_⟩, fun _ h => (by cases h), fun h => absurd h hnot⟩
        show g.timer.elapsed + (a.clock (g.tick + 1 - 1) - a.clock g.tick) = sp
        simp [h3]
      · have hfin : (g.resume a.cfg).phase = .finished ∧ (g.resume a.cfg).interrupt = some .limit := by
          have : ∃ l, a.cfg.limit = some l ∧ ¬ (g.num : Int) < l := by
            by_contra hc; exact hl (fun l h => by by_contra h'; exact hc ⟨l, h, h'⟩)
          obtain ⟨l, hl1, hl2⟩ := this
          have : (g.num : Int) ≥ l := by omega
          simp [Gen.resume, hl1, this, Gen.withTimer, Timer.abort, Timer.running, h2]
        refine ⟨fun h => ?_, fun _ h => ?_, fun h => ?_⟩
        · rw [hfin.1] at h; cases h
        · rw [hfin.1] at h; cases h
        · rw [hfin.2] at h; cases h
  | running =>
    obtain ⟨h1, t0, h2, h3⟩ := hi.run hp
    have hnot : g.interrupt ≠ some .timeout := fun h => by have := (hi.late h).1; rw [hp] at this; cases this
    have hcfg : a.cfg.timeout = some t := ht
    have hclk : a.cfg.clock = a.clock := rfl
    simp only [sysStep, hp]
    by_cases hne : g.search.stack.isEmpty = true
    · have hl : g.loop a.cfg (candidates (startSolve a m h).2.1 s) = { g with phase := .finished } := by simp [Gen.loop, hne]
      rw [hl]
      exact ⟨fun h => (by cases h), fun _ h => (by cases h), fun h => absurd h hnot⟩
    · have hne : g.search.stack.isEmpty = false := by simpa using hne
      by_cases hto : g.timedOut a.cfg = true
      · rw [loop_timeout a.cfg hne hto]
        refine ⟨fun h => (by cases h), fun _ h => (by cases h), fun _ => ⟨rfl, ?_⟩⟩
        simp only [Gen.timedOut, hcfg, Timer.elapsedAt, h2, hclk, decide_eq_true_eq] at hto
        simp only [Nat.add_sub_cancel]
        omega
      · have hto : g.timedOut a.cfg = false := by simpa using hto
        have hl : g.loop a.cfg (candidates (startSolve a m h).2.1 s) = match g.search.step (candidates (startSolve a m h).2.1 s) with
            | .done => { g with tick := g.tick + 1, phase := .finished }
            | .raised e => { g with tick := g.tick + 1, phase := .raised e }
            | .silent s' => { g with tick := g.tick + 1, search := s' }
            | .yield σ s' => { g with tick := g.tick + 2, timer := ⟨g.timer.elapsed + (a.clock (g.tick + 1) - t0), none, g.timer.count + 1⟩,
                                      search := s', num := g.num + 1, phase := .suspended σ } := by
          simp only [Gen.loop, hne, hto, hcfg]
          simp only [Bool.false_eq_true, if_false, Option.isSome_some, if_true]
          cases g.search.step (candidates (startSolve a m h).2.1 s) <;> simp [Gen.withTimer, Timer.doStop, h2, hclk]
        rw [hl]
        generalize g.search.step (candidates (startSolve a m h).2.1 s) = ev
        cases ev with
        | done => exact ⟨fun h => (by cases h), fun _ h => (by cases h), fun h => absurd h hnot⟩
        | raised e => exact ⟨fun h => (by cases h), fun _ h => (by cases h), fun h => absurd h hnot⟩
        | silent s' =>
          refine ⟨fun _ => ⟨by simp, t0, h2, ?_⟩, fun _ h => ?_, fun h => absurd h hnot⟩
          · simp only [Nat.add_sub_cancel]; omega
          · simp only [hp] at h; cases h
        | yield σ s' =>
          have e2 : g.tick + 2 - 1 = g.tick + 1 := rfl
          simp only [e2]
          refine ⟨fun h => (by cases h), fun _ _ => ⟨by simp, rfl, ?_⟩, fun h => absurd h hnot⟩
          simp only; omega

/-- C21: an iteration is only interrupted by its timeout when the search has had control for longer than that, whatever the clock does. -/
theorem C21_spent {a : SolveArgs} (hs : ∀ l, (a.shuffle l).Perm l) (m : Model) (act : Heap → Subst → Res Heap) (h : Heap) (n : Nat)
    (hi : (solveRun a m act n h).2.1.interrupt = some .timeout) : ∃ t, a.solver.timeout = some t ∧ t < spent a m act h n := by
  obtain ⟨t, ht, hx⟩ := C21_genuine a hs m act h n hi
  refine ⟨t, ht, ?_⟩
  suffices Shows a t (solveRun a m act n h).2.1 (spent a m act h n) from (this.late hi).2
  clear hi hx
  induction n with
  | zero =>
    have h0 : spent a m act h 0 = 0 := rfl
    rw [h0]
    show Shows a t (startSolve a m h).2.2 0
    cases startCase (a := a) m h hs with
    | idle h1 _ => rw [h1]; exact ⟨fun h => (by cases h), fun _ h => (by cases h), fun h => (by cases h)⟩
    | fail e h1 _ _ => rw [h1]; exact ⟨fun h => (by cases h), fun _ h => (by cases h), fun h => (by cases h)⟩
    | go H info _ _ hst _ _ =>
      rw [hst]
      exact ⟨fun _ => ⟨by simp [Gen.first], a.clock 0, rfl, by simp [Gen.first]⟩, fun _ h => (by cases h), fun h => (by cases h)⟩
  | succ n ih => exact shows_step ht n ih

/-- The hypothesis is met: timeout 35, interrupted after 40. -/
example : ∃ t, tickArgs.solver.timeout = some t ∧ t < spent tickArgs exModel passive exHeap 12 :=
  C21_spent (fun l => .refl _) exModel passive exHeap 12 (by decide)

end Satisfy.Props
