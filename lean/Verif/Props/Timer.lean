import Verif.Timer
import Mathlib.Data.List.Induction

/-!
# C69: a timer measures the time during which it was running

The description looks at the calls that were made and when, not at the timer: it runs if the last call was `start()`.
-/

namespace Satisfy.Props

/-- Is the timer running after these calls? -/
def runsAfter (calls : List (Int × TimerCall)) : Prop := ∃ now, calls.getLast? = some (now, .start)

instance (calls : List (Int × TimerCall)) : Decidable (runsAfter calls) :=
  match h : calls.getLast? with
  | none => .isFalse (by rintro ⟨_, h'⟩; rw [h] at h'; cases h')
  | some (now, .start) => .isTrue ⟨now, h⟩
  | some (_, .stop _) => .isFalse (by rintro ⟨_, h'⟩; rw [h] at h'; cases h')
  | some (_, .abort) => .isFalse (by rintro ⟨_, h'⟩; rw [h] at h'; cases h')

/-- The time between the call number `i` and the next one, or `now` if there is none, if the timer ran then. -/
def gap (calls : List (Int × TimerCall)) (now : Int) (i : Nat) : Int :=
  match calls[i]? with
  | none => 0
  | some (t, _) => if runsAfter (calls.take (i + 1)) then (calls[i + 1]?.map (·.1)).getD now - t else 0

/-- All of it. -/
def runTime (calls : List (Int × TimerCall)) (now : Int) : Int := ((List.range calls.length).map (gap calls now)).sum

/-- The number that the call number `i` counts. -/
def counted (calls : List (Int × TimerCall)) (i : Nat) : Nat :=
  match calls[i]? with
  | some (_, .stop n) => if runsAfter (calls.take i) then n else 0
  | _ => 0

/-- What the call number `i` raises. -/
def raisedBy (calls : List (Int × TimerCall)) (i : Nat) : Option Err :=
  match calls[i]? with
  | some (_, .start) => if runsAfter (calls.take i) then some .runtimeError else none
  | some (_, .stop _) => if runsAfter (calls.take i) then none else some .runtimeError
  | _ => none

theorem runsAfter_snoc (l : List (Int × TimerCall)) (t : Int) (c : TimerCall) : runsAfter (l ++ [(t, c)]) ↔ c = .start := by
  simp [runsAfter]

theorem runTime_snoc (l : List (Int × TimerCall)) (t : Int) (c : TimerCall) (now : Int) :
    runTime (l ++ [(t, c)]) now = runTime l t + if c = .start then now - t else 0 := by
  unfold runTime
  rw [List.length_append, List.length_singleton, List.range_succ, List.map_append, List.sum_append]
  congr 1
  · congr 1
    refine List.map_congr_left (fun i hi => ?_)
    have hi : i < l.length := List.mem_range.1 hi
    unfold gap
    rw [List.getElem?_append_left hi, List.take_append_of_le_length (by omega)]
    by_cases h : i + 1 < l.length
    · rw [List.getElem?_append_left h]
      simp [h]
    · have : i + 1 = l.length := by omega
      rw [this]
      simp
  · have : List.take (l.length + 1) (l ++ [(t, c)]) = l ++ [(t, c)] := List.take_of_length_le (by simp)
    simp [gap, this, runsAfter_snoc]

theorem counted_snoc (l : List (Int × TimerCall)) (x : Int × TimerCall) (i : Nat) (hi : i < l.length) : counted (l ++ [x]) i = counted l i := by
  unfold counted
  rw [List.getElem?_append_left hi, List.take_append_of_le_length (by omega)]

theorem raisedBy_snoc (l : List (Int × TimerCall)) (x : Int × TimerCall) (i : Nat) (hi : i < l.length) : raisedBy (l ++ [x]) i = raisedBy l i := by
  unfold raisedBy
  rw [List.getElem?_append_left hi, List.take_append_of_le_length (by omega)]

theorem calls_snoc (l : List (Int × TimerCall)) (t : Int) (c : TimerCall) (T : Timer) :
    Timer.calls (l ++ [(t, c)]) T =
      (((Timer.calls l T).1.call t c).1, (Timer.calls l T).2 ++ [((Timer.calls l T).1.call t c).2]) := by
  induction l generalizing T with
  | nil => simp [Timer.calls]
  | cons x l ih => simp [Timer.calls, ih]

/-- C69: after any calls, at any times: the timer is running iff the last call was `start()`; `elapsed()` is the time during which it was running; `count()` is the sum of the counts of the `stop()` calls
made while it was running; and a call raised `RuntimeError` iff it was a `start()` while the timer was running or a `stop()` while it was not. -/
theorem C69_timer (calls : List (Int × TimerCall)) :
    ((Timer.calls calls .new).1.running = true ↔ runsAfter calls) ∧
    (∀ now, (Timer.calls calls .new).1.elapsedAt now = runTime calls now) ∧
    (Timer.calls calls .new).1.count = ((List.range calls.length).map (counted calls)).sum ∧
    (Timer.calls calls .new).2 = (List.range calls.length).map (raisedBy calls) := by
  induction calls using List.reverseRecOn with
  | nil => exact ⟨by simp [Timer.calls, Timer.new, Timer.running, runsAfter], by simp [Timer.calls, Timer.new, Timer.elapsedAt, runTime], rfl, rfl⟩
  | append_singleton l x ih =>
    obtain ⟨t, c⟩ := x
    obtain ⟨ih1, ih2, ih3, ih4⟩ := ih
    rw [calls_snoc]
    simp only [runsAfter_snoc, runTime_snoc, List.length_append, List.length_singleton, List.range_succ, List.map_append, List.sum_append, ih4]
    rw [List.map_congr_left (fun i hi => counted_snoc l (t, c) i (List.mem_range.1 hi)), List.map_congr_left (fun i hi => raisedBy_snoc l (t, c) i (List.mem_range.1 hi)), ← ih3]
    have hc : counted (l ++ [(t, c)]) l.length = match c with | .stop n => if runsAfter l then n else 0 | _ => 0 := by
      unfold counted
      simp only [List.getElem?_concat_length, List.take_left']
      cases c <;> rfl
    have hr : raisedBy (l ++ [(t, c)]) l.length = match c with
        | .start => if runsAfter l then some .runtimeError else none
        | .stop _ => if runsAfter l then none else some .runtimeError
        | .abort => none := by
      unfold raisedBy
      simp only [List.getElem?_concat_length, List.take_left']
      cases c <;> rfl
    simp only [List.map_cons, List.map_nil, List.sum_cons, List.sum_nil, hc, hr, ← ih1, ← ih2]
    generalize (Timer.calls l .new).1 = T
    obtain ⟨el, s, n⟩ := T
    cases c <;> cases s <;> simp [Timer.call, Timer.doStart, Timer.doStop, Timer.abort, Timer.running, Timer.elapsedAt]
    all_goals intros; omega

/-- C69, `stats()`: what it reports does not change while the timer runs, and is up to date when it does not run. -/
theorem C69_stats (calls : List (Int × TimerCall)) (now : Int) :
    (¬ runsAfter calls → (Timer.calls calls .new).1.stats = ((Timer.calls calls .new).1.count, runTime calls now)) ∧
    (Timer.calls (calls ++ [(now, .start)]) .new).1.stats = (Timer.calls calls .new).1.stats := by
  constructor
  · intro h
    rw [← (C69_timer calls).2.1 now]
    have : (Timer.calls calls .new).1.running = false := by
      rw [← Bool.not_eq_true, (C69_timer calls).1]; exact h
    revert this
    generalize (Timer.calls calls .new).1 = T
    obtain ⟨el, s, n⟩ := T
    cases s <;> simp [Timer.running, Timer.stats, Timer.elapsedAt]
  · rw [calls_snoc]
    generalize (Timer.calls calls .new).1 = T
    obtain ⟨el, s, n⟩ := T
    cases s <;> simp [Timer.stats, Timer.call, Timer.doStart, Timer.running]

/-- C69, if the clock does not go back, then the time reported does not either, and it is not more than the time that went by since the first call. -/
theorem C69_monotone (t : Int) (c : TimerCall) (calls : List (Int × TimerCall)) (hsorted : ((t, c) :: calls).Pairwise (fun x y => x.1 ≤ y.1)) (now now' : Int)
    (hnow : ∀ x ∈ (t, c) :: calls, x.1 ≤ now) (hle : now ≤ now') :
    0 ≤ (Timer.calls ((t, c) :: calls) .new).1.elapsedAt now ∧ (Timer.calls ((t, c) :: calls) .new).1.elapsedAt now ≤ now - t ∧
    (Timer.calls ((t, c) :: calls) .new).1.elapsedAt now ≤ (Timer.calls ((t, c) :: calls) .new).1.elapsedAt now' := by
  have key : ∀ (calls : List (Int × TimerCall)) (now now' : Int), ((t, c) :: calls).Pairwise (fun x y => x.1 ≤ y.1) → (∀ x ∈ (t, c) :: calls, x.1 ≤ now) → now ≤ now' →
      0 ≤ runTime ((t, c) :: calls) now ∧ runTime ((t, c) :: calls) now ≤ now - t ∧ runTime ((t, c) :: calls) now ≤ runTime ((t, c) :: calls) now' := by
    intro calls
    induction calls using List.reverseRecOn with
    | nil =>
      intro now now' _ hnow hle
      have := hnow (t, c) (by simp)
      rw [show [(t, c)] = [] ++ [(t, c)] from rfl, runTime_snoc, runTime_snoc, show runTime [] t = 0 from rfl]
      simp only at this
      split <;> omega
    | append_singleton l x ih =>
      obtain ⟨t', c'⟩ := x
      intro now now' hs hnow hle
      rw [← List.cons_append] at hs hnow ⊢
      have h1 := (List.pairwise_append.1 hs)
      have h2 := hnow (t', c') (by simp)
      have h3 := h1.2.2 (t, c) (by simp) (t', c') (by simp)
      obtain ⟨i1, i2, i3⟩ := ih t' t' h1.1 (fun x hx => h1.2.2 x hx (t', c') (by simp)) (Int.le_refl _)
      rw [runTime_snoc, runTime_snoc]
      simp only at h2 h3
      split <;> omega
  rw [(C69_timer _).2.1, (C69_timer _).2.1]
  exact key calls now now' hsorted hnow hle

/-! Started at 10, started again at 12 (raises), stopped at 15, stopped again at 20 (raises), started at 30, aborted at 32. -/

example : Timer.calls [(10, .start), (12, .start), (15, .stop 1), (20, .stop 1), (30, .start), (32, .abort)] .new =
    (⟨7, none, 1⟩, [none, some .runtimeError, none, some .runtimeError, none, none]) := by decide

example : runTime [(10, .start), (12, .start), (15, .stop 1), (20, .stop 1), (30, .start)] 31 = 6 := by decide

end Satisfy.Props
