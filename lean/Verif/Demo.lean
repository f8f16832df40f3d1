import Verif.Cryptarithm
import Verif.Solver
/-!
# The texts printed by the demos (tool/demo_utils.py, tool/demo_cryptarithm.py)

Each function answers with the text handed to `print` (a list of them, if there are several).
-/

namespace Satisfy

/-- `str(interrupt)` (solver.py:231, 280). -/
def Interrupt.text : Interrupt → String
  | .timeout => "timeout"
  | .limit => "limit"

/-- `print_solve_stats` (tool/demo_utils.py:17-29). `secs` is `"{:.3f}".format(stats.elapsed)`. -/
def solveStatsText (count : Nat) (secs : String) (interrupt : Option Interrupt) : String :=
  let suffix := if count = 1 then "" else "s"
  match interrupt with
  | some i => "\nFound " ++ toString count ++ " partial solution" ++ suffix ++ " in " ++ secs ++ " seconds [" ++ i.text ++ " reached]"
  | none =>
    if count = 1 then "\nFound unique solution" ++ suffix ++ " in " ++ secs ++ " seconds"
    else "\nFound all " ++ toString count ++ " solution" ++ suffix ++ " in " ++ secs ++ " seconds"

/-- `print_solve_stats(solver.get_stats())` (solver.py:435-440) after a run of the generator; `fmt` is `"{:.3f}".format`. -/
def Gen.statsText (fmt : Int → String) (g : Gen) : String :=
  solveStatsText g.timer.stats.1 (fmt g.timer.stats.2) g.interrupt

/-- `print_optimization_stats` (tool/demo_utils.py:32-48). -/
def optStatsText (count : Nat) (secs : String) (interrupt : Option Interrupt) (optimal : Option Bool) : String :=
  let optimal := optimal.getD interrupt.isNone
  let kind := if optimal then "optimal" else "sub-optimal"
  let suffix := if count = 1 then "" else "s"
  "\nFound " ++ kind ++ " solution in " ++ secs ++ " seconds after " ++ toString count ++ " solve iteration" ++ suffix ++
    (match interrupt with | some i => " [" ++ i.text ++ " reached]" | none => "")

/-- `s.replace(pat, rep)` for a `pat` that is not empty; `skip` characters still belong to the last match. -/
def replaceGo (pat rep : List Char) : Nat → List Char → List Char
  | _, [] => []
  | skip + 1, _ :: cs => replaceGo pat rep skip cs
  | 0, c :: cs => if pat.isPrefixOf (c :: cs) then rep ++ replaceGo pat rep (pat.length - 1) cs else c :: replaceGo pat rep 0 cs

/-- `str(i)`. -/
def intStr (i : Int) : List Char := if i < 0 then '-' :: natStr i.natAbs else natStr i.natAbs

/-- The loop of `print_cryptarithm_solution` (tool/demo_cryptarithm.py:22-24): the lines printed, and `s`. -/
def cryptPrintGo (σ : Subst) : List Name → List Char → Res (List (List Char) × List Char)
  | [], s => .ok ([], s)
  | k :: ks, s => do
    let v ← σ.at k
    let (ls, s') ← cryptPrintGo σ ks (replaceGo k.toList (intStr v) 0 s)
    return ((k.toList ++ " = ".toList ++ intStr v) :: ls, s')

/-- `print_cryptarithm_solution` (tool/demo_cryptarithm.py:20-25): the lines printed. -/
def cryptPrint (σ : Subst) (source : List Char) : Res (List (List Char)) := do
  let (ls, s) ← cryptPrintGo σ (pySorted (fun x y => decide (x < y)) σ.keys) source
  return ls ++ ["==> ".toList ++ s]

end Satisfy
