import Verif.Solver
/-!
# Building models in a program

What the puzzle front ends have in common: `ModelSolverBase.__init__` (solver.py:443-450) makes an empty `Model`; loops and list
comprehensions call the methods of the model one after the other; an exception ends the construction.
-/

namespace Satisfy

/-- `[f(a) for a in l]`, `for a in l: f(a)`. -/
def Api.each {α β : Type} (f : α → Api β) : List α → Api (List β)
  | [] => Api.pure []
  | a :: l => do
    let b ← f a
    let bs ← Api.each f l
    return b :: bs

/-- What `add_constraint` is given when its argument is written as a comparison: comparing ints gives a `bool`, comparing two `Const` objects a plain int
(expression.py:272-300), which is not accepted. -/
def cmpArg (c : Cmp) : Obj → Obj → CArg
  | .int m, .int n => .bool (c.holds m n)
  | a, b => match Obj.cmp c a b with
    | .int _ => .other
    | .expr e => .expr e

/-- Decode solutions one after the other. -/
def Res.each {α β : Type} (f : α → Res β) : List α → Res (List β)
  | [] => .ok []
  | a :: l => do return (← f a) :: (← Res.each f l)

/-- `n` steps of iterating a puzzle solver: `for solution in solver.solve(model): … yield result` (sudoku.py:92-101, queens.py:42-46,
graph_labeling.py:28-32, nonogram.py, cryptarithm.py): the results so far, and the state of the inner generator. -/
def puzzleRun {β : Type} (a : SolveArgs) (w : World) (dec : Subst → Res β) (n : Nat) : Res (List β) × Gen :=
  (Res.each dec (solveRun a w.model passive n w.heap).1, (solveRun a w.model passive n w.heap).2.1)

/-- A dict with arbitrary keys: lookup. -/
def aget {α β : Type} [DecidableEq α] : List (α × β) → α → Option β
  | [], _ => none
  | (k, v) :: d, x => if k = x then some v else aget d x

/-- A dict with arbitrary keys: assignment. -/
def aset {α β : Type} [DecidableEq α] : List (α × β) → α → β → List (α × β)
  | [], x, y => [(x, y)]
  | (k, v) :: d, x, y => if k = x then (k, y) :: d else (k, v) :: aset d x y

/-- `variable.name` (expression.py:743). -/
def Expr.name : Expr → Name
  | .var x => x
  | .param _ x => x
  | _ => ""

/-- `solution[name]`. -/
def Subst.at (σ : Subst) (x : Name) : Res Int :=
  match σ.get? x with
  | some v => .ok v
  | none => .error .keyError

/-- `range(a, b)`. -/
def pyRange (a b : Int) : List Int := (List.range (b - a).toNat).map (fun i => a + Int.ofNat i)

/-- A Python index into a sequence of length `n`: negative ones count from the end. -/
def pyIndex (n : Nat) (i : Int) : Option Nat :=
  if 0 ≤ i then (if i < n then some i.toNat else none)
  else if -(n : Int) ≤ i then some (i + n).toNat else none

/-- `l[i]` for a list or tuple. -/
def listAt {α : Type} (l : List α) (i : Int) : Res α :=
  match (pyIndex l.length i).bind (fun k => l[k]?) with
  | some x => .ok x
  | none => .error .indexError

/-- `l[i] = x` for a list. -/
def listSet {α : Type} (l : List α) (i : Int) (x : α) : Res (List α) :=
  match pyIndex l.length i with
  | some k => .ok (l.set k x)
  | none => .error .indexError

end Satisfy
