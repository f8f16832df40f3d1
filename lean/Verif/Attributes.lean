import Verif.Settings
import Verif.Optimize
/-!
# Settings as Python values: the constructor and the properties of `Solver`, keyword arguments, what is given as an objective

`Settings.lean` has the bounds only. Here every setting is a Python value, right or wrong, and keyword arguments are dicts.
-/

namespace Satisfy

/-- A Python value, as far as the code tells values apart: `None`, `INFINITY`, a number, a member of `VarSelectionPolicy`, or something else, which
cannot be compared with a number (a text, a list, …) and is true or false. -/
inductive Value where
  | none | infinity | num (n : Int) | policy (p : Policy) | other (truth : Bool)
  deriving DecidableEq

/-- `bool(value)`. Members of an `Enum` are true, also `ORDERED`, whose value is 0; `INFINITY` is an object without `__bool__` (utils.py:14-34). -/
def Value.truth : Value → Bool
  | .none => false
  | .infinity => true
  | .num n => n != 0
  | .policy _ => true
  | .other b => b

/-- The attributes `_var_selection_policy`, `_timeout`, `_limit`, `_compile_constraints` (solver.py:45-52). -/
structure SolverObj where
  policy : Value
  timeout : Value
  limit : Value
  compile : Bool
  deriving DecidableEq

/-- The setter of `var_selection_policy` (solver.py:61-65). -/
def SolverObj.setPolicy (s : SolverObj) (v : Value) : Res SolverObj :=
  match v with
  | .policy _ => .ok { s with policy := v }
  | _ => .error .typeError

/-- The setter of `timeout` (solver.py:71-75). -/
def SolverObj.setTimeout (s : SolverObj) (v : Value) : SolverObj := { s with timeout := if v = .infinity then .none else v }

/-- The setter of `limit` (solver.py:81-85). -/
def SolverObj.setLimit (s : SolverObj) (v : Value) : SolverObj := { s with limit := if v = .infinity then .none else v }

/-- The setter of `compile_constraints` (solver.py:91-93). -/
def SolverObj.setCompile (s : SolverObj) (v : Value) : SolverObj := { s with compile := v.truth }

/-- An assignment to a property of a solver: `solver.timeout = v`, … -/
inductive Assign where
  | policy (v : Value) | timeout (v : Value) | limit (v : Value) | compile (v : Value)

/-- What the setter does (solver.py:61-93). -/
def SolverObj.assign (s : SolverObj) : Assign → Res SolverObj
  | .policy v => s.setPolicy v
  | .timeout v => .ok (s.setTimeout v)
  | .limit v => .ok (s.setLimit v)
  | .compile v => .ok (s.setCompile v)

/-- The solver after the assignment; a setter that raises has not changed anything (solver.py:63-65). -/
def SolverObj.after (s : SolverObj) (x : Assign) : SolverObj :=
  match s.assign x with
  | .ok s' => s'
  | .error _ => s

/-- The parameters of `Solver.__init__` (solver.py:41-44). -/
def settingNames : List Name := ["var_selection_policy", "timeout", "limit", "compile_constraints"]

/-- `Solver(**args)` (solver.py:41-55): an unknown keyword is a `TypeError`; the setters are called in this order. (The `None` that
`_compile_constraints` holds for a moment is `false` here.) -/
def SolverObj.init (args : Dict Value) : Res SolverObj :=
  if args.keys.any (fun k => decide (k ∉ settingNames)) then .error .typeError
  else do
    let s : SolverObj := ⟨.none, .none, .none, false⟩
    let s ← s.setPolicy ((args.get? "var_selection_policy").getD (.policy .groups))
    let s := s.setTimeout ((args.get? "timeout").getD .none)
    let s := s.setLimit ((args.get? "limit").getD .none)
    return s.setCompile ((args.get? "compile_constraints").getD (.num 1))

/-- A bound of a call in the tests of `solve` (solver.py:228-230, 278): `None`, a number, or something that cannot be compared with a number, for which
`Setting.infinity` stands. -/
def Value.setting : Value → Setting
  | .none => .none
  | .num n => .num n
  | _ => .infinity

/-- The order that `solve` chooses (solver.py:172-207): none of the `is` tests is true of `ORDERED`, nor of anything that is no policy. -/
def Value.selects : Value → Policy
  | .policy p => p
  | _ => .ordered

/-- What surrounds a call of `solve`: additional constraints, `random.shuffle`, the clock. -/
structure Around where
  adds : List Constraint := []
  shuffle : List Name → List Name := id
  clock : Nat → Int := fun _ => 0

/-- `solver.solve(model, **args)` (solver.py:154-283), iterated for `n` steps: `args.get('timeout', self._timeout)` and so on. `additional_constraints`
is in `env`. -/
def SolverObj.solve (s : SolverObj) (args : Dict Value) (env : Around) (m : Model) (act : Heap → Subst → Res Heap) (n : Nat) (h : Heap) :
    List Subst × Gen × Heap :=
  callRun ⟨{ policy := ((args.get? "var_selection_policy").getD s.policy).selects, compile := s.compile }, env.adds, env.shuffle, env.clock⟩
    ⟨some ((args.get? "timeout").getD s.timeout).setting, some ((args.get? "limit").getD s.limit).setting⟩ m act n h

/-- `ModelSolverBase.__init__` (solver.py:444-450): the solver of a `ModelSolver(solver=…, **args)`. -/
def modelSolverInit (solver : Option SolverObj) (args : Dict Value) : Res SolverObj :=
  match solver with
  | Option.none => SolverObj.init args
  | some s => .ok s

/-- `ModelSolver.__iter__` (solver.py:464-466). -/
def modelSolverIter (s : SolverObj) (env : Around) (m : Model) (act : Heap → Subst → Res Heap) (n : Nat) (h : Heap) : List Subst × Gen × Heap :=
  s.solve [] env m act n h

/-- `Minimize(x)`, `Maximize(x)` (objective.py:55-59): only for expressions. -/
def Objective.make (maximize : Bool) : Obj → Res Objective
  | .int _ => .error .typeError
  | .expr e => .ok ⟨maximize, e⟩

/-- What is given to `optimize` as `objective`: an objective, a collection (`none` for an item that is no objective), or something that cannot be
iterated. -/
inductive ObjArg where
  | one (o : Objective) | items (l : List (Option Objective)) | scalar

/-- The loop making the constraints, with its check (solver.py:408-411). -/
def makeChecked : List (Option Objective) → Api (List ObjCon)
  | [] => return []
  | none :: _ => Api.raise .valueError
  | some o :: rest => do
    let k ← makeConstraint o
    return k :: (← makeChecked rest)

/-- `solver.optimize(model, objective, **args)` (solver.py:402-421), iterated for `n` steps, as `optimizeRun`: the text from the first line on runs at the first
`next()`. -/
def optimizeGiven (a : SolveArgs) (arg : ObjArg) (n : Nat) (w : World) : List Subst × Gen × World :=
  match arg with
  | .scalar => ([], .idle (.raised .typeError), w)
  | .one o => go [some o]
  | .items l => go l
where
  go (l : List (Option Objective)) : List Subst × Gen × World :=
    match makeChecked l w with
    | (w', .error e) => ([], .idle (.raised e), w')
    | (w', .ok ks) =>
      let r := solveRun (a.withObjectives ks) w'.model (onSolution ks) n w'.heap
      (r.1, r.2.1, { w' with heap := r.2.2 })

end Satisfy
