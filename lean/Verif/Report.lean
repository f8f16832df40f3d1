import Verif.Boards
import Verif.Knapsack
import Verif.MapColoring
/-!
# The report of the knapsack demo (tool/demo_knapsack.py), and what the map, graph and cryptarithm demos print for a solution
-/

namespace Satisfy

/-- `str` of a tuple of ints. -/
def tupleText : List Int → List Char
  | [] => ['(', ')']
  | [v] => '(' :: intStr v ++ [',', ')']
  | l => '(' :: joinChars [',', ' '] (l.map intStr) ++ [')']

/-- `str` of something that may be `None`. -/
def orNone {α : Type} (text : α → List Char) : Option α → List Char
  | none => ['N', 'o', 'n', 'e']
  | some x => text x

/-- What is printed once the optimizer has returned (tool/demo_knapsack.py:75-84), given `knapsack_optimizer.get_stats()`. The text between the
quotes of `repr` consists of `X`, `_` and blanks, so nothing is escaped. -/
def knapsackReport (count : Nat) (secs : String) (interrupt : Option Interrupt) (r : KnapSolution) : List (List Char) :=
  ["=== optimal_solution ===".toList, "is_optimal: ".toList ++ (if r.isOptimal then "True".toList else "False".toList)] ++
  (match r.solution with
   | none => ["no solution found".toList]
   | some x => ["solution: ".toList ++ '\'' :: knapsackText x ++ ['\''], "value: ".toList ++ orNone intStr r.value,
      "weights: ".toList ++ orNone tupleText r.weights]) ++
  [(optStatsText count secs interrupt (some r.isOptimal)).toList]

/-- The demo from the call of the optimizer on (tool/demo_knapsack.py:73-84) after `n` steps of the search; `none` while it is still going on. -/
def knapsackDemo (fmt : Int → String) (a : SolveArgs) (k : Option Knapsack) (n : Nat) (w : World) : Option (Res (List (List Char))) :=
  match knapCall a k n w with
  | none => none
  | some (.error e) => some (.error e)
  | some (.ok r) =>
    let g := match k with
      | none => Gen.idle .finished
      | some k => (optimizeRun a [k.objective] n w).2.1
    some (.ok (knapsackReport g.timer.stats.1 (fmt g.timer.stats.2) g.interrupt r))

/-- `'\n'.join(''.join(row) for row in ascii_map)` (tool/demo_ascii_map_coloring.py:73). `colored` is `termcolor.colored`; the class has put a blank or such a
text in every cell (tool/ascii_map_coloring.py:98-104). -/
def mapText {β : Type} (colored : Char → β → List Char) (M : List (List (Option (Char × β)))) : List Char :=
  joinChars ['\n'] (M.map (fun row => (row.map (fun x => match x with | none => [' '] | some (l, c) => colored l c)).flatten))

/-- `str` of a dict (tool/demo_graph_labeling.py:103); `ra`, `rb` are `repr` of the keys and of the values. -/
def dictText {α β : Type} (ra : α → List Char) (rb : β → List Char) (L : List (α × β)) : List Char :=
  '{' :: joinChars [',', ' '] (L.map (fun p => ra p.1 ++ [':', ' '] ++ rb p.2)) ++ ['}']

end Satisfy
