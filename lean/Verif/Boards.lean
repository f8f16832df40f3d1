import Verif.Demo
import Verif.Build
import Verif.Image
import Verif.Settings
/-!
# The boards printed by the demos (tool/demo_sudoku.py, tool/demo_queens.py) and their loops over the solutions

Each function answers with the lines handed to `print`. A function that raises has printed the lines before; they are not kept here.
-/

namespace Satisfy

/-- `l.insert(i, x)` for `i ≥ 0`. -/
def pyInsert {α : Type} (l : List α) (i : Nat) (x : α) : List α := l.take i ++ x :: l.drop i

/-- `conv` (tool/demo_sudoku.py:47-51). -/
def sudokuConv : Option Int → List Char
  | none => ['.']
  | some v => if truthy v then intStr v else ['.']

/-- One line of the board (tool/demo_sudoku.py:58-63). -/
def sudokuRowText (row : List (Option Int)) : List Char :=
  let lst := row.map (fun v => ' ' :: sudokuConv v ++ [' '])
  let lst := pyInsert lst 9 ['│']
  let lst := pyInsert lst 6 ['│']
  let lst := pyInsert lst 3 ['│']
  let lst := pyInsert lst 0 ['│']
  lst.flatten

/-- `uline`, `mline`, `bline` (tool/demo_sudoku.py:42-44). -/
def sudokuUline : List Char := "┌─────────┬─────────┬─────────┐".toList
def sudokuMline : List Char := "├─────────┼─────────┼─────────┤".toList
def sudokuBline : List Char := "└─────────┴─────────┴─────────┘".toList

/-- The rounds of the outer loop from `br` on (tool/demo_sudoku.py:53-63), given `hline`; `n` rounds are left. -/
def sudokuBands (schema : List (List (Option Int))) : Nat → Nat → List Char → Res (List (List Char))
  | 0, _, _ => .ok []
  | n + 1, br, hline => do
    let rows ← Res.each (fun (sr : Nat) => do return sudokuRowText (← listAt schema ((br * 3 + sr : Nat) : Int))) (List.range 3)
    let rest ← sudokuBands schema n (br + 1) sudokuMline
    return hline :: rows ++ rest

/-- `print_sudoku_schema` (tool/demo_sudoku.py:34-64). -/
def sudokuBoard (schema : List (List (Option Int))) : Res (List (List Char)) := do
  let ls ← sudokuBands schema 3 0 sudokuUline
  return ls ++ [sudokuBline]

/-- A row of a chessboard (tool/demo_queens.py:28-34). -/
def queensRowText (row : List Int) : List Char :=
  '│' :: joinChars ['│'] (row.map (fun q => if truthy q then [' ', '♛', ' '] else [' ', ' ', ' '])) ++ ['│']

/-- The lines between the rows (tool/demo_queens.py:20-22). -/
def queensRule (n : Nat) (l m r : Char) : List Char := l :: joinChars [m] (List.replicate n ['─', '─', '─']) ++ [r]

/-- The loop over the rows (tool/demo_queens.py:25-34), given `hline`. -/
def queensLoop (n : Nat) : List (List Int) → List Char → List (List Char)
  | [], _ => []
  | row :: rows, hline => hline :: queensRowText row :: queensLoop n rows (queensRule n '├' '┼' '┤')

/-- `print_queens_board` (tool/demo_queens.py:17-35). -/
def queensPicture (n : Nat) (board : List (List Int)) : List (List Char) :=
  queensLoop n board (queensRule n '┌' '┬' '┐') ++ [queensRule n '└' '┴' '┘']

/-- The loop over the solutions (tool/demo_sudoku.py:84-87, demo_queens.py:45-48, demo_einstein_riddle.py:38-41, demo_nonogram.py:88-91,
demo_cryptarithm.py:44-47, demo_ascii_map_coloring.py:70-73, demo_graph_labeling.py:100-103): a numbered heading and the solution. `k` solutions
have been counted before. -/
def demoLoop {β : Type} (pr : β → Res (List (List Char))) : Nat → List β → Res (List (List Char))
  | _, [] => .ok []
  | k, b :: bs => do
    let ls ← pr b
    let rest ← demoLoop pr (k + 1) bs
    return ("\n=== solution ".toList ++ natStr (k + 1) ++ " ===".toList) :: ls ++ rest

/-- A demo from the loop on, after `n` steps of the search: the lines so far, and with the line of `print_solve_stats(solver.get_stats())` once the
iteration has ended. `fmt` is `"{:.3f}".format`. -/
def demoRun {β : Type} (fmt : Int → String) (pr : β → Res (List (List Char))) (run : Nat → Res (List β) × Gen) (n : Nat) : Res (List (List Char)) := do
  let ls ← demoLoop pr 0 (← (run n).1)
  match (run n).2.phase with
  | .finished => return ls ++ [((run n).2.statsText fmt).toList]
  | _ => return ls

/-- The limit of a `SudokuSolver` (sudoku.py:19-21) or an `AsciiMapColoringSolver` (ascii_map_coloring.py:85-87): if none is given, 1. -/
def oneByDefault (limit : Setting) : Option Int := (if limit = .none then Setting.num 1 else limit).stored

/-- `solution_string` (tool/demo_knapsack.py:60-67). -/
def knapsackText (solution : List Int) : List Char := joinChars [' '] (solution.map (fun item => if truthy item then ['X'] else ['_']))

/-- `ordinal` (tool/demo_einstein_riddle.py:14-20). -/
def einOrdinal (i : Int) : Res String :=
  if i = 1 then .ok "first" else if i = 2 then .ok "second" else if i = 3 then .ok "third" else if i = 4 then .ok "fourth"
  else if i = 5 then .ok "fifth" else .error .keyError

/-- `var_d[k]`. -/
def einGet (d : List (String × String)) (k : String) : Res String :=
  match aget d k with
  | some v => .ok v
  | none => .error .keyError

/-- One line of `print_einstein_riddle_solution` (tool/demo_einstein_riddle.py:21-27). -/
def einLine (h : Int × List (String × String)) : Res (List Char) := do
  let found := if (← einGet h.2 "animal") = "a zebra" then "[*]" else "   "
  let ord ← einOrdinal h.1
  return (found ++ " The " ++ (← einGet h.2 "owner") ++ ", who lives in the " ++ ord ++ " " ++ (← einGet h.2 "color") ++ " house, drinks " ++
    (← einGet h.2 "drink") ++ ", smokes " ++ (← einGet h.2 "smoke") ++ " and has " ++ (← einGet h.2 "animal") ++ ".").toList

/-- `print_einstein_riddle_solution` (tool/demo_einstein_riddle.py:13-27). -/
def einPrint (z : List (Int × List (String × String))) : Res (List (List Char)) := Res.each einLine z

/-- `print_nonogram_pixmap` (tool/demo_nonogram.py:36-37). -/
def nonoPrint (p : List (List Int)) : Res (List (List Char)) := do return [← pixmapToImage p]

end Satisfy
