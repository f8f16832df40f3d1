import Verif.Props.Reuse
import Verif.Props.Limits
/-!
C48: `get_stats()` when several iterations of one `Solver` are in progress.

Each iteration uses the `Timer` made by its own `_reset()` (a local variable, solver.py:151-155, 224); the attributes `_timer` and
`_interrupt` of the `Solver` are shared.
-/

namespace Satisfy.Props

/-- Iterations of one `Solver`: whose timer `self._timer` is (`none`: the one made by `__init__`), and `self._interrupt`. -/
structure Shared where
  multi : Multi
  current : Option Nat
  interrupt : Option Interrupt

/-- A `Solver` that was just made (solver.py:41-55). -/
def Shared.init (h : Heap) : Shared := ⟨⟨h, fun _ => none, fun _ => []⟩, none, none⟩

/-- One step of iteration `i`. The first one resets the attributes (solver.py:150-155); an iteration that is interrupted writes
`self._interrupt` (solver.py:231, 280). -/
def Shared.step (jobs : Nat → SolveArgs × Model) (w : Shared) (i : Nat) : Shared :=
  let m := w.multi.step jobs i
  match w.multi.its i with
  | none => ⟨m, some i, none⟩
  | some (_, g) => match m.its i with
    | none => ⟨m, w.current, w.interrupt⟩
    | some (_, g') => ⟨m, w.current, if g'.interrupt = g.interrupt then w.interrupt else g'.interrupt⟩

def Shared.run (jobs : Nat → SolveArgs × Model) (h : Heap) (schedule : List Nat) : Shared := schedule.foldl (Shared.step jobs) (.init h)

/-- `get_stats()` (solver.py:435-440): count, elapsed, interrupt. -/
def Shared.getStats (w : Shared) : (Nat × Int) × Option Interrupt :=
  (match w.current.bind w.multi.its with
    | none => Timer.new.stats
    | some (_, g) => g.timer.stats,
   w.interrupt)

/-- The iterations of the theorems: of one solver or of solvers with the same compilation setting, constraint objects are told apart by
their identities. -/
structure Jobs (jobs : Nat → SolveArgs × Model) : Prop where
  comp : ∃ comp, ∀ i, (jobs i).1.solver.compile = comp
  shuffle : ∀ i l, ((jobs i).1.shuffle l).Perm l
  names : ∀ i, (jobs i).2.vars.keys.Nodup
  ids : ∀ i j c c', c ∈ (jobs i).2.constraints ++ (jobs i).1.adds → c' ∈ (jobs j).2.constraints ++ (jobs j).1.adds → c.id = c'.id → c = c'

/-- Iteration `i` was started last: `q` only advances iterations that had been started. -/
def LastStarted (p q : List Nat) (i : Nat) : Prop := i ∉ p ∧ ∀ j ∈ q, j = i ∨ j ∈ p

section
variable {jobs : Nat → SolveArgs × Model} {h : Heap}

theorem shared_multi (s : List Nat) : ∀ w : Shared, (s.foldl (Shared.step jobs) w).multi = s.foldl (Multi.step jobs) w.multi := by
  induction s with
  | nil => intro w; rfl
  | cons i s ih =>
    intro w
    rw [List.foldl_cons, List.foldl_cons, ih]
    congr 1
    unfold Shared.step
    simp only
    split
    · rfl
    · split <;> rfl

theorem run_multi (s : List Nat) : (Shared.run jobs h s).multi = s.foldl (Multi.step jobs) ⟨h, fun _ => none, fun _ => []⟩ := shared_multi s _

theorem run_snoc (s : List Nat) (i : Nat) : Shared.run jobs h (s ++ [i]) = (Shared.run jobs h s).step jobs i := by
  simp [Shared.run]

/-- Where the iterations are. -/
theorem run_its (hj : Jobs jobs) (s : List Nat) (i : Nat) : (Shared.run jobs h s).multi.its i =
    match s.count i with
    | 0 => none
    | k + 1 => some ((startSolve (jobs i).1 (jobs i).2 h).2.1, (solveRun (jobs i).1 (jobs i).2 passive k h).2.1) := by
  obtain ⟨comp, hcomp⟩ := hj.comp
  have := C27_interleaved jobs comp hcomp hj.names hj.ids h s i
  simp only at this
  rw [run_multi]
  refine (congrArg Prod.fst this).trans ?_
  cases s.count i <;> rfl

/-- An interrupted iteration is over. -/
theorem flag_stays (hj : Jobs jobs) (i k : Nat) (hi : (solveRun (jobs i).1 (jobs i).2 passive k h).2.1.interrupt ≠ none) :
    (solveRun (jobs i).1 (jobs i).2 passive (k + 1) h).2.1 = (solveRun (jobs i).1 (jobs i).2 passive k h).2.1 := by
  have hf := C20_flag_last (jobs i).1 (hj.shuffle i) (jobs i).2 passive h k hi
  rw [solveRun_eq] at hf ⊢
  rw [solveRun_eq, sysRun_one_more]
  simp only [sysStep, hf]

/-- After any schedule in which `i` was started last. -/
theorem run_last (hj : Jobs jobs) (p : List Nat) (i : Nat) (hp : i ∉ p) (q : List Nat) : (∀ j ∈ q, j = i ∨ j ∈ p) →
    let w := Shared.run jobs h (p ++ i :: q)
    let int := fun j k => (solveRun (jobs j).1 (jobs j).2 passive k h).2.1.interrupt
    w.current = some i ∧ (w.interrupt = none → int i (q.count i) = none) ∧
    ((∀ j ∈ q, j ≠ i → ∀ k, int j k = none) → w.interrupt = int i (q.count i)) ∧
    (∀ v, w.interrupt = some v → ∃ j, (j = i ∨ j ∈ q) ∧ ∃ k, int j k = some v) := by
  induction q using List.reverseRecOn with
  | nil =>
    intro _
    have hnone : (Shared.run jobs h p).multi.its i = none := by
      rw [run_its hj, List.count_eq_zero.2 hp]
    have h0 : (solveRun (jobs i).1 (jobs i).2 passive 0 h).2.1.interrupt = none := by
      rw [solveRun_eq]
      obtain ⟨_, _, h3, _⟩ := start_ok (jobs i).1 (hj.shuffle i) (jobs i).2 h
      exact h3
    simp only
    rw [run_snoc]
    simp only [Shared.step, hnone]
    exact ⟨trivial, fun _ => h0, fun _ => h0.symm, by simp⟩
  | append_singleton q j ih =>
    intro hq
    simp only
    obtain ⟨h1, h2, h3, h4⟩ := ih (fun j' hj' => hq j' (by simp [hj']))
    have hsplit : p ++ i :: (q ++ [j]) = (p ++ i :: q) ++ [j] := by simp
    rw [hsplit, run_snoc]
    have hpos : ∃ k, (p ++ i :: q).count j = k + 1 := by
      refine Nat.exists_eq_succ_of_ne_zero (fun h0 => ?_)
      have := List.count_eq_zero.1 h0
      rcases hq j (by simp) with rfl | hm
      · exact this (by simp)
      · exact this (by simp [hm])
    obtain ⟨k, hk⟩ := hpos
    have hits := run_its (h := h) hj (p ++ i :: q) j
    have hits' := run_its (h := h) hj (p ++ i :: q ++ [j]) j
    rw [hk] at hits
    rw [List.count_append, hk] at hits'
    simp only [List.count_singleton_self] at hits'
    rw [run_snoc] at hits'
    have hm : (Shared.step jobs (Shared.run jobs h (p ++ i :: q)) j).multi = (Shared.run jobs h (p ++ i :: q)).multi.step jobs j := by
      have := shared_multi (jobs := jobs) [j] (Shared.run jobs h (p ++ i :: q))
      simpa using this
    rw [hm] at hits'
    simp only [Shared.step, hits, hits']
    have hci : j = i → k = q.count i := by
      rintro rfl
      have : (p ++ j :: q).count j = q.count j + 1 := by simp [List.count_eq_zero.2 hp]
      omega
    have hcn : (q ++ [j]).count i = if j = i then q.count i + 1 else q.count i := by
      rw [List.count_append]
      by_cases hji : j = i
      · subst hji; simp
      · simp [hji]
    have hstay : (solveRun (jobs j).1 (jobs j).2 passive k h).2.1.interrupt ≠ none →
        (solveRun (jobs j).1 (jobs j).2 passive (k + 1) h).2.1.interrupt = (solveRun (jobs j).1 (jobs j).2 passive k h).2.1.interrupt :=
      fun hne => by rw [flag_stays hj j k hne]
    refine ⟨h1, ?_, ?_, ?_⟩
    · intro hn
      by_cases hji : j = i
      · subst hji
        rw [hcn, if_pos rfl, ← hci rfl]
        split at hn
        · rename_i he; rw [he, hci rfl]; exact h2 hn
        · exact hn
      · rw [hcn, if_neg hji]
        split at hn
        · exact h2 hn
        · rename_i he
          by_cases hne : (solveRun (jobs j).1 (jobs j).2 passive k h).2.1.interrupt = none
          · exact absurd (hn.trans hne.symm) he
          · exact absurd (hstay hne) he
    · intro hall
      have h3 := h3 (fun j' hj' hne k => hall j' (by simp [hj']) hne k)
      by_cases hji : j = i
      · subst hji
        rw [hcn, if_pos rfl, ← hci rfl]
        split
        · rename_i he; rw [he, hci rfl]; exact h3
        · rfl
      · rw [hcn, if_neg hji]
        have e1 := hall j (by simp) hji k
        have e2 := hall j (by simp) hji (k + 1)
        rw [if_pos (e2.trans e1.symm)]
        exact h3
    · intro v hv
      split at hv
      · obtain ⟨j', h5, h6⟩ := h4 v hv
        exact ⟨j', h5.imp id (fun h => by simp [h]), h6⟩
      · exact ⟨j, .inr (by simp), k + 1, hv⟩

/-! ## C48 -/

/-- C48: `count` and `elapsed` of `get_stats()` are those of the iteration started last, as if it had run alone: `count` is the number of its
solutions. -/
theorem C48_count_elapsed (hj : Jobs jobs) {p q : List Nat} {i : Nat} (hl : LastStarted p q i) :
    let w := Shared.run jobs h (p ++ i :: q)
    let r := solveRun (jobs i).1 (jobs i).2 passive (q.count i) h
    w.getStats.1 = r.2.1.timer.stats ∧ w.getStats.1.1 = r.1.length ∧ w.multi.outs i = r.1 := by
  obtain ⟨hp, hq⟩ := hl
  simp only
  have h1 := (run_last (h := h) hj p i hp q hq).1
  have hits := run_its (h := h) hj (p ++ i :: q) i
  have hc : (p ++ i :: q).count i = q.count i + 1 := by simp [List.count_eq_zero.2 hp]
  rw [hc] at hits
  simp only at hits
  have hst : (Shared.run jobs h (p ++ i :: q)).getStats.1 = (solveRun (jobs i).1 (jobs i).2 passive (q.count i) h).2.1.timer.stats := by
    simp only [Shared.getStats, h1, Option.bind_some, hits]
  refine ⟨hst, ?_, ?_⟩
  · rw [hst]
    exact congrArg Prod.fst (C22_stats (jobs i).1 (hj.shuffle i) (jobs i).2 passive h (q.count i)).2.2
  · obtain ⟨comp, hcomp⟩ := hj.comp
    have := C27_interleaved jobs comp hcomp hj.names hj.ids h (p ++ i :: q) i
    simp only [hc] at this
    rw [run_multi]
    exact congrArg Prod.snd this

/-- C48: if `interrupt` of `get_stats()` is `None`, the iteration started last has not been interrupted; if it is not, one of the iterations
that have been advanced since was interrupted in that way. -/
theorem C48_interrupt (hj : Jobs jobs) {p q : List Nat} {i : Nat} (hl : LastStarted p q i) :
    let w := Shared.run jobs h (p ++ i :: q)
    (w.getStats.2 = none → (solveRun (jobs i).1 (jobs i).2 passive (q.count i) h).2.1.interrupt = none) ∧
    ∀ v, w.getStats.2 = some v → ∃ j, (j = i ∨ j ∈ q) ∧ ∃ k, (solveRun (jobs j).1 (jobs j).2 passive k h).2.1.interrupt = some v :=
  have h := run_last (h := h) hj p i hl.1 q hl.2
  ⟨h.2.1, h.2.2.2⟩

/-- C48 for `interrupt`, if no other iteration that is advanced after the start of this one is ever interrupted; in particular if no other is
advanced. Missing: the others, see `C48_refuted`. -/
theorem C48_partial (hj : Jobs jobs) {p q : List Nat} {i : Nat} (hl : LastStarted p q i)
    (hoth : ∀ j ∈ q, j ≠ i → ∀ k, (solveRun (jobs j).1 (jobs j).2 passive k h).2.1.interrupt = none) :
    let w := Shared.run jobs h (p ++ i :: q)
    let r := solveRun (jobs i).1 (jobs i).2 passive (q.count i) h
    w.getStats = (r.2.1.timer.stats, r.2.1.interrupt) := by
  have h1 := (C48_count_elapsed (h := h) hj hl).1
  have h2 := (run_last (h := h) hj p i hl.1 q hl.2).2.2.1 hoth
  simp only at h1 h2 ⊢
  exact Prod.ext h1 h2

end

/-- The full claim: `get_stats()` describes the iteration started last. -/
def C48 : Prop := ∀ (jobs : Nat → SolveArgs × Model) (h : Heap), Jobs jobs → ∀ p q i, LastStarted p q i →
  let r := solveRun (jobs i).1 (jobs i).2 passive (q.count i) h
  (Shared.run jobs h (p ++ i :: q)).getStats = (r.2.1.timer.stats, r.2.1.interrupt)

/-- Iteration 0 with limit 1, the others without limit. -/
def exJobs : Nat → SolveArgs × Model := fun i => ({ exArgs with solver := { limit := if i = 0 then some 1 else none } }, exModel)

theorem exJobs_ok : Jobs exJobs :=
  ⟨⟨true, fun _ => rfl⟩, fun _ _ => .refl _, fun _ => exOk.wf.names, fun _ _ c c' hc hc' he => exOk.ids c hc c' hc' he⟩

/-- C48 is false of the code: the interrupt of an older iteration shows up. -/
theorem C48_refuted : ¬ C48 := by
  intro hall
  have := hall exJobs exHeap exJobs_ok [0, 0] [0, 0, 0, 1] 1 ⟨by decide, by decide⟩
  exact absurd this (by decide)

/-- Started last and advanced alone: after two solutions, without interrupt. -/
example : (Shared.run exJobs exHeap ([0, 0, 0] ++ 1 :: List.replicate 12 1)).getStats = ((2, 0), none) := by
  have := C48_partial (h := exHeap) exJobs_ok (p := [0, 0, 0]) (q := List.replicate 12 1) (i := 1) ⟨by decide, by simp⟩ (by simp)
  simp only at this
  rw [this]
  decide

end Satisfy.Props
