import Verif.Solver
/-!
# objective.py, and `Solver.optimize` / `Solver.optimal_solution` (solver.py:402-433)
-/

namespace Satisfy

/-- `Minimize(expression)` / `Maximize(expression)` (objective.py:54-73). -/
structure Objective where
  maximize : Bool
  expr : Expr

/-- The `op` handed to `MinMaxConstraint`: `operator.lt` / `operator.gt` (objective.py:44-51). -/
def Objective.cmp (o : Objective) : Cmp := if o.maximize then .gt else .lt

/-- A `MinMaxConstraint` object with the attributes `_not_set`, `_bound` (objective.py:30-35), next to its
objective. -/
structure ObjCon where
  obj : Objective
  con : Constraint
  notSet : Expr
  bound : Expr

/-- `self._not_set | op(expression, self._bound)` (objective.py:35). -/
def boundExpr (o : Objective) (notSet bound : Expr) : Expr :=
  coerce (Obj.or (.expr notSet) (Obj.cmp o.cmp (.expr o.expr) (.expr bound)))

/-- `objective.make_constraint(model)` = `MinMaxConstraint.__init__` (objective.py:31-35, 67-73). -/
def makeConstraint (o : Objective) : Api ObjCon := do
  let notSet ← addParameter 1 none
  let bound ← addParameter 0 none
  let c ← newConstraint (.expr (boundExpr o notSet bound))
  return ⟨o, c, notSet, bound⟩

/-- `parameter.value = v` for a parameter object. -/
def Heap.assign (h : Heap) : Expr → Int → Heap
  | .param i _, v => h.setParam i v
  | _, _ => h

/-- `set_bound(value)` (objective.py:37-41). -/
def ObjCon.setBound (k : ObjCon) (v : Int) (h : Heap) : Heap :=
  let h := h.assign k.notSet 0
  let h := h.assign k.bound v
  if k.con.isCompiled h then k.con.compile h else h

/-- `objective.add_solution(constraint, solution)` (objective.py:61-63). -/
def ObjCon.addSolution (k : ObjCon) (h : Heap) (σ : Subst) : Res Heap := do
  let v ← k.obj.expr.eval h.params σ
  return k.setBound v h

/-- What `optimize` does with a solution before handing it on (solver.py:415-416). An exception loses the
changes made for earlier objectives in this step; nothing looks at them afterwards. -/
def onSolution : List ObjCon → Heap → Subst → Res Heap
  | [], h, _ => .ok h
  | k :: ks, h, σ => do onSolution ks (← k.addSolution h σ) σ

/-- The loop making the constraints (solver.py:408-411). -/
def makeConstraints : List Objective → Api (List ObjCon)
  | [] => return []
  | o :: os => do
    let k ← makeConstraint o
    return k :: (← makeConstraints os)

/-- The arguments of the inner `solve` (solver.py:412). -/
def SolveArgs.withObjectives (a : SolveArgs) (ks : List ObjCon) : SolveArgs :=
  { a with adds := a.adds ++ ks.map (·.con) }

/-- `n` steps of iterating `solver.optimize(model, objectives, **args)` (solver.py:402-421): what the inner
`solve` has handed out, its generator, the world. `optimize` hands on each of these solutions after tightening the
bounds; if that raises, the exception leaves `optimize` and the solution is not handed on. -/
def optimizeRun (a : SolveArgs) (os : List Objective) (n : Nat) (w : World) : List Subst × Gen × World :=
  match makeConstraints os w with
  | (w', .error e) => ([], .idle (.raised e), w')
  | (w', .ok ks) =>
    let r := solveRun (a.withObjectives ks) w'.model (onSolution ks) n w'.heap
    (r.1, r.2.1, { w' with heap := r.2.2 })

/-- `OptSolution` (solver.py:24-26). -/
structure OptSolution where
  isOptimal : Bool
  solution : Option Subst
  deriving DecidableEq

/-- `optimal_solution` (solver.py:423-433) when the iteration has reached this state; `none` while it is
still going on. -/
def optimalSolution (r : List Subst × Gen × World) : Option (Res OptSolution) :=
  match r.2.1.phase with
  | .finished => some (.ok ⟨r.1 ≠ [] ∧ r.2.1.interrupt = none, r.1.getLast?⟩)
  | .raised e => some (.error e)
  | _ => none

end Satisfy
