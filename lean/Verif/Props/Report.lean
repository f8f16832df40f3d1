import Verif.Report
import Verif.Props.Boards
import Verif.Props.Transcript
import Verif.Props.Knapsack
import Verif.Props.Demo
/-!
# The report of the knapsack demo: C61
-/

namespace Satisfy.Props
open Satisfy

/-- `intStr` is the decimal notation. -/
theorem intStr_toString (v : Int) : intStr v = (toString v).toList := by
  cases v with
  | ofNat n =>
    have : ¬ (Int.ofNat n < 0) := by simp
    rw [intStr, if_neg this, natStr_toString]; rfl
  | negSucc n =>
    rw [intStr, if_pos (Int.negSucc_lt_zero n), natStr_toString]
    show _ = ("-" ++ toString (n + 1)).toList
    rw [String.toList_append]; rfl

/-- Specification: one mark per item, with a blank between two marks; `X`: selected, `_`: not selected. -/
def Marks (x : List Int) (text : List Char) : Prop :=
  text.length = 2 * x.length - 1 ∧ ∀ i v, x[i]? = some v → text[2 * i]? = some (if v = 0 then '_' else 'X') ∧ (i + 1 < x.length → text[2 * i + 1]? = some ' ')

theorem marks_knapsackText (x : List Int) : Marks x (knapsackText x) := by
  have h1 : ∀ w : Int, (if truthy w then ['X'] else ['_']) = [if w = 0 then '_' else 'X'] := by
    intro w
    by_cases hw : w = 0 <;> simp [truthy, hw]
  unfold knapsackText
  simp only [h1]
  induction x with
  | nil => exact ⟨rfl, fun i v h => by simp at h⟩
  | cons a x ih =>
    cases x with
    | nil =>
      refine ⟨rfl, fun i v h => ?_⟩
      cases i with
      | zero => cases h; simp [joinChars]
      | succ i => simp at h
    | cons b x =>
      obtain ⟨hl, hi⟩ := ih
      simp only [List.map_cons, joinChars] at hl hi ⊢
      refine ⟨?_, fun i v h => ?_⟩
      · simp only [List.length_append, List.length_cons, List.length_nil] at hl ⊢
        omega
      · cases i with
        | zero => cases h; simp
        | succ i =>
          have := hi i v (by simpa using h)
          simp only [List.length_cons] at this ⊢
          refine ⟨?_, fun hlt => ?_⟩
          · rw [← this.1]; simp [Nat.mul_add]
          · rw [← this.2 (by omega)]; simp [Nat.mul_add]

/-- Specification: a tuple of ints as Python prints it. -/
def tupleString : List Int → String
  | [] => "()"
  | [v] => "(" ++ toString v ++ ",)"
  | v :: l => "(" ++ toString v ++ String.join (l.map (fun u => ", " ++ toString u)) ++ ")"

theorem joinChars_cons (sep p : List Char) (ps : List (List Char)) : joinChars sep (p :: ps) = p ++ (ps.map (fun q => sep ++ q)).flatten := by
  induction ps generalizing p with
  | nil => simp [joinChars]
  | cons q ps ih => rw [joinChars, ih]; simp; simp

theorem tupleText_string (l : List Int) : tupleText l = (tupleString l).toList := by
  match l with
  | [] => rfl
  | [v] => simp [tupleText, tupleString, intStr_toString, String.toList_append]
  | v :: u :: l =>
    simp only [tupleText, tupleString, String.toList_append, List.map_cons, joinChars_cons, ← intStr_toString]
    have : (String.join (List.map (fun u => ", " ++ toString u) (u :: l))).toList = (List.map (fun q => [',', ' '] ++ q) (List.map intStr (u :: l))).flatten := by
      rw [String.toList_join, List.flatMap_def, List.map_map, List.map_map]
      congr 1
      apply List.map_congr_left
      intro v _
      simp [intStr_toString]
    simp only [List.map_cons] at this
    rw [this]
    simp

/-- Specification: the lines about the selection. -/
def KnapShown (values caps : List Int) (rows : List (List Int)) (middle : List (List Char)) : Option (List Int) → Prop
  | none => middle = ["no solution found".toList]
  | some y => ∃ marks, Marks y marks ∧ middle = ["solution: '".toList ++ marks ++ ['\''], ("value: " ++ toString (dot y values)).toList,
      ("weights: " ++ tupleString ((List.range caps.length).map (fun j => dot y (column rows j)))).toList]

/-- Specification: the report. `x`: the selection shown, if there is one; `k`: the number of iterations; `why`: the interruption. -/
structure KnapReport (fmt : Int → String) (values caps : List Int) (rows : List (List Int)) (x : Option (List Int)) (optimal : Bool) (k : Nat) (why : Option Interrupt)
    (lines : List (List Char)) : Prop where
  /-- what is shown is a feasible selection -/
  feasible : ∀ y, x = some y → Selection values caps rows y
  text : ∃ middle secs, lines = ["=== optimal_solution ===".toList, ("is_optimal: " ++ if optimal then "True" else "False").toList] ++ middle ++
      [("\nFound " ++ (if optimal then "optimal" else "sub-optimal") ++ " solution in " ++ fmt secs ++ " seconds after " ++ toString k ++ " solve iteration" ++
        (if k = 1 then "" else "s") ++ (match why with | none => "" | some .timeout => " [timeout reached]" | some .limit => " [limit reached]")).toList] ∧
    KnapShown values caps rows middle x
  /-- "optimal" is said exactly if something is shown and there was no interruption -/
  flag : optimal = true ↔ x ≠ none ∧ why = none
  /-- no iterations exactly if nothing is shown -/
  count : k = 0 ↔ x = none

section
variable {values caps : List Int} {rows : List (List Int)}

theorem optStatsText_eq (k : Nat) (secs : String) (i : Option Interrupt) (b : Bool) : optStatsText k secs i (some b) =
    "\nFound " ++ (if b then "optimal" else "sub-optimal") ++ " solution in " ++ secs ++ " seconds after " ++ toString k ++ " solve iteration" ++
        (if k = 1 then "" else "s") ++ (match i with | none => "" | some .timeout => " [timeout reached]" | some .limit => " [limit reached]") := by
  cases i with
  | none => rfl
  | some i => cases i <;> rfl

/-- What the demo prints, in terms of what the optimizer returned. -/
theorem report_of_call (h : Heap) (hne : values ≠ []) (hwf : WellFormed values caps rows) :
    ∃ w k, knapBuild (values.map some) (caps.map some) (seqOf rows) ⟨.empty, h⟩ = (w, .ok (some k)) ∧
      ∀ a : SolveArgs, (∀ l, (a.shuffle l).Perm l) → a.adds = [] → ∀ (fmt : Int → String) n r, knapCall a (some k) n w = some (.ok r) →
        ∃ lines, knapsackDemo fmt a (some k) n w = some (.ok lines) ∧
          KnapReport fmt values caps rows r.solution r.isOptimal (optimizeRun a [k.objective] n w).1.length (optimizeRun a [k.objective] n w).2.1.interrupt lines := by
  obtain ⟨w, k, hw, hc⟩ := C32_partial h hne hwf
  refine ⟨w, k, hw, fun a hs ha fmt n r hr => ?_⟩
  obtain ⟨h1, h2⟩ := hc a hs ha n r hr
  obtain ⟨s, hs1, hs2⟩ := knapCall_ok hr
  have hf := (C29_flag a _ w n s hs1).1
  have hsome : (s.solution = none ↔ r.solution = none) ∧ s.isOptimal = r.isOptimal := by
    rcases hs2 with ⟨h0, rfl⟩ | ⟨τ, h0, hd⟩
    · exact ⟨by simp [h0], rfl⟩
    · have : ∃ x, r.solution = some x ∧ r.isOptimal = s.isOptimal := by
        unfold Knapsack.decode at hd
        cases e1 : Res.each (fun x : Expr => τ.at x.name) k.vars with
        | error e => rw [e1] at hd; cases hd
        | ok sol =>
          rw [e1] at hd
          simp only [ok_bind] at hd
          generalize (Res.each _ (List.range k.capacities.length) : Res (List Int)) = q at hd
          cases q with
          | error e => cases hd
          | ok ws => cases hd; exact ⟨_, rfl, rfl⟩
      obtain ⟨x, hx, ho⟩ := this
      exact ⟨by simp [h0, hx], ho.symm⟩
  have hlast : s.solution = (optimizeRun a [k.objective] n w).1.getLast? := by
    unfold optimalSolution at hs1
    split at hs1
    · simp only [Option.some.injEq, Except.ok.injEq] at hs1
      rw [← hs1]
    · cases hs1
    · cases hs1
  have hcount : (optimizeRun a [k.objective] n w).2.1.timer.stats.1 = (optimizeRun a [k.objective] n w).1.length := by
    unfold optimizeRun
    split
    · rfl
    · exact congrArg Prod.fst (C22_stats (a.withObjectives _) hs _ _ _ n).2.2
  refine ⟨knapsackReport (optimizeRun a [k.objective] n w).2.1.timer.stats.1 (fmt (optimizeRun a [k.objective] n w).2.1.timer.stats.2)
    (optimizeRun a [k.objective] n w).2.1.interrupt r, by unfold knapsackDemo; rw [hr], fun y hy => (h1 y hy).1, ?_, ?_, ?_⟩
  · rw [hcount]
    cases hx : r.solution with
    | none =>
      refine ⟨_, (optimizeRun a [k.objective] n w).2.1.timer.stats.2, ?_, rfl⟩
      unfold knapsackReport
      rw [hx, optStatsText_eq]
      simp only [String.toList_append]
      cases r.isOptimal <;> rfl
    | some y =>
      refine ⟨_, (optimizeRun a [k.objective] n w).2.1.timer.stats.2, ?_, knapsackText y, marks_knapsackText y, rfl⟩
      obtain ⟨_, hv, hws⟩ := h1 y hx
      unfold knapsackReport
      rw [hx, hv, hws, optStatsText_eq]
      simp only [orNone, tupleText_string, intStr_toString, String.toList_append]
      cases r.isOptimal <;> rfl
  · rw [← hsome.2, hf, ne_eq, ne_eq, hsome.1]
  · rw [List.length_eq_zero_iff, ← hsome.1, hlast, List.getLast?_eq_none_iff]

/-- An interruption by the limit or the timeout is reported only if there is one and it has been reached. -/
theorem optimize_interrupt (a : SolveArgs) (hs : ∀ l, (a.shuffle l).Perm l) (os : List Objective) (n : Nat) (w : World) :
    ((optimizeRun a os n w).2.1.interrupt = some .limit → ∃ l, a.solver.limit = some l ∧ (optimizeRun a os n w).1.length = max 1 l.toNat) ∧
    ((optimizeRun a os n w).2.1.interrupt = some .timeout → ∃ t, a.solver.timeout = some t) := by
  unfold optimizeRun
  split
  · exact ⟨fun h => (by cases h), fun h => (by cases h)⟩
  · exact ⟨(C20_any_consumer (a.withObjectives _) hs _ _ _ n).2, fun h => (C21_genuine (a.withObjectives _) hs _ _ _ n h).imp fun _ h => h.1⟩

/-- C61: the demo ends and its report is right: what is shown is a feasible selection with its value and its weights; "no solution found" without an interruption
is said only if there is none; "[limit reached]", "[timeout reached]" only if so. "optimal" is said only of a best selection if the values are not negative
and not exactly one of them is different from 0. Missing: the other values (`C33_single_refuted`, `C33_negative_refuted`); that "sub-optimal" is said only of a
selection that is not the best (`C61_refuted_best`, `C61_refuted_none`). -/
theorem C61_partial (h : Heap) (hne : values ≠ []) (hwf : WellFormed values caps rows) :
    ∃ w k, knapBuild (values.map some) (caps.map some) (seqOf rows) ⟨.empty, h⟩ = (w, .ok (some k)) ∧
      ∀ a : SolveArgs, (∀ l, (a.shuffle l).Perm l) → a.adds = [] → ∀ fmt : Int → String, ∃ N, ∀ n ≥ N, ∃ x optimal count why lines,
        knapsackDemo fmt a (some k) n w = some (.ok lines) ∧ KnapReport fmt values caps rows x optimal count why lines ∧
        (x = none → why = none → ¬ ∃ y, Selection values caps rows y) ∧
        (why = some .limit → ∃ l, a.solver.limit = some l ∧ count = max 1 l.toNat) ∧ (why = some .timeout → ∃ t, a.solver.timeout = some t) ∧
        ((∀ v ∈ values, 0 ≤ v) → (values.filter (· ≠ 0)).length ≠ 1 → optimal = true →
          ∃ y, x = some y ∧ ∀ z, Selection values caps rows z → dot z values ≤ dot y values) := by
  obtain ⟨w, k, hw, hrep⟩ := report_of_call h hne hwf
  obtain ⟨w', k', hw', hret⟩ := C32_returns h hne hwf
  rw [hw] at hw'; cases hw'
  obtain ⟨w', k', hw', hnone⟩ := C32_none h hne hwf
  rw [hw] at hw'; cases hw'
  refine ⟨w, k, hw, fun a hs ha fmt => ?_⟩
  obtain ⟨r, N, hN⟩ := hret a hs ha
  refine ⟨N, fun n hn => ?_⟩
  obtain ⟨lines, h1, h2⟩ := hrep a hs ha fmt n r (hN n hn)
  have hint := optimize_interrupt a hs [k.objective] n w
  refine ⟨_, _, _, _, lines, h1, h2, fun hx hw => hnone a hs ha n r (hN n hn) hx hw, hint.1, hint.2, fun hpos hone hopt => ?_⟩
  obtain ⟨w', k', hw', hbest⟩ := C33_partial h hne hwf hpos
  rw [hw] at hw'; cases hw'
  obtain ⟨y, hy, _, hmax⟩ := hbest a hs ha (.inl hone) n r (hN n hn) hopt
  exact ⟨y, hy, hmax⟩

end

/-- The result of building the optimizer and running the demo. -/
def knapDemoRun (a : SolveArgs) (values caps : List Int) (rows : List (List Int)) (n : Nat) : Option (Res (List String)) :=
  let r := built (knapBuild (values.map some) (caps.map some) (seqOf rows)) none
  (knapsackDemo (fun _ => "0.000") a r.2 n r.1).map (fun r => r.map (List.map String.ofList))

/-- C61 is false of the code: with nothing that fits, the last line speaks of a sub-optimal solution that has been found. -/
theorem C61_refuted_none : knapDemoRun exArgs [1] [-1] [[1]] 10 = some (.ok ["=== optimal_solution ===", "is_optimal: False", "no solution found",
      "\nFound sub-optimal solution in 0.000 seconds after 0 solve iterations"]) ∧ ¬ ∃ x, Selection [1] [-1] [[1]] x := by
  refine ⟨by decide +kernel, ?_⟩
  rintro ⟨x, hl, hb, hf⟩
  match x, hl with
  | [b], _ =>
    have h1 := hf 0 (-1) rfl
    rcases hb b (by simp) with rfl | rfl <;> exact absurd h1 (by decide)

/-- C61 is false of the code: with a limit that happens to be reached at the best selection, that one is called sub-optimal. -/
theorem C61_refuted_best : knapDemoRun { exArgs with solver := { limit := some 1 } } [0, 0] [1] [[1], [1]] 20 = some (.ok ["=== optimal_solution ===",
      "is_optimal: False", "solution: '_ _'", "value: 0", "weights: (0,)", "\nFound sub-optimal solution in 0.000 seconds after 1 solve iteration [limit reached]"]) ∧
    ∀ y, Selection [0, 0] [1] [[1], [1]] y → dot y [0, 0] ≤ dot [0, 0] [0, 0] := by
  refine ⟨by decide +kernel, ?_⟩
  rintro y ⟨hl, _, _⟩
  match y, hl with
  | [a, b], _ => simp [dot]

/-! A case that meets the hypotheses: two items competing for the capacity, and the report. -/

example := C61_partial (values := [1, 2]) (caps := [2]) (rows := [[1], [2]]) heap0 (by simp) ⟨rfl, by decide⟩

example : knapDemoRun exArgs [1, 2] [2] [[1], [2]] 20 = some (.ok ["=== optimal_solution ===", "is_optimal: True", "solution: '_ X'", "value: 2",
    "weights: (2,)", "\nFound optimal solution in 0.000 seconds after 3 solve iterations"]) := by decide +kernel

example : tupleString [] = "()" ∧ tupleString [4] = "(4,)" ∧ tupleString [8, -6, 0] = "(8, -6, 0)" := by decide

end Satisfy.Props
