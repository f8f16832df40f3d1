import Verif.SpecOptimize
/-!
# Models, solvers and iterations side by side

A program holds several models and solvers, changes them, and advances several iterations of `solve` and `optimize` in any order. Both are generator
functions: the call `solver.solve(model, **args)` runs nothing; all of its body runs at the first `next()` and later
(solver.py:154-283, 402-421).
-/

namespace Satisfy

/-- The arguments of a call of `solve` (solver.py:156-159); `none` if not given. Additional constraints are named by their identities. -/
structure GivenArgs where
  timeout : Option (Option Int) := none
  limit : Option (Option Int) := none
  policy : Option Policy := none
  adds : List Nat := []

/-- A call `solvers[solver].solve(models[model], **args)`, and what its environment does; with objectives, a call
`solvers[solver].optimize(models[model], objectives, **args)`. Without any, `optimize` does what `solve` does (solver.py:402-421). -/
structure SolveCall where
  solver : Nat
  model : Nat
  args : GivenArgs := {}
  objectives : List Objective := []
  shuffle : List Name → List Name := id
  clock : Nat → Int := fun _ => 0

/-- `objs[i]` is the constraint object number `i` (its immutable part); `none` for those that `optimize` makes (solver.py:411), which only it
can reach. -/
def objectAt (objs : List (Option CKind)) (i : Nat) : Option Constraint := objs[i]?.join.map (fun k => ⟨i, k⟩)

/-- `args.get('timeout', self._timeout)` and so on (solver.py:156-159), `self._compile_constraints` (solver.py:103). -/
def SolveCall.effective (c : SolveCall) (s : Solver) (objs : List (Option CKind)) : SolveArgs where
  solver := {
    timeout := c.args.timeout.getD s.timeout
    limit := c.args.limit.getD s.limit
    policy := c.args.policy.getD s.policy
    compile := s.compile }
  adds := c.args.adds.filterMap (objectAt objs)
  shuffle := c.shuffle
  clock := c.clock

/-- An iteration in progress: the local variables of `solve` that do not change, the constraints made for the objectives, the generator. -/
structure Iteration where
  cfg : RunCfg
  info : Info
  objs : List ObjCon
  gen : Gen

/-- One step of an iteration, and the solution handed out. `optimize` tightens its bounds before it hands on a solution (solver.py:413-421); if
that raises, nothing is handed on. As in `onSolution`, the bounds set before an exception are dropped. -/
def Iteration.advance (it : Iteration) (h : Heap) : Iteration × Heap × List Subst :=
  match it.gen.phase with
  | .running =>
    let g := it.gen.loop it.cfg (candidates it.info h)
    match g.phase with
    | .suspended σ => match onSolution it.objs h σ with
      | .ok h' => ({ it with gen := g }, h', [σ])
      | .error e => ({ it with gen := { g with phase := .raised e } }, h, [])
    | _ => ({ it with gen := g }, h, [])
  | .suspended _ => ({ it with gen := it.gen.resume it.cfg }, h, [])
  | _ => (it, h, [])

/-- All objects of the program. An iteration is `none` until its first `next()`; `outs` is what it has handed out. -/
structure Session where
  models : Nat → Model
  solvers : Nat → Solver
  heap : Heap
  objs : List (Option CKind)
  its : Nat → Option Iteration
  outs : Nat → List Subst

/-- Nothing but empty models and solvers with their default settings. -/
def Session.init : Session where
  models := fun _ => .empty
  solvers := fun _ => {}
  heap := ⟨fun _ => 0, fun _ => none, 0, 0⟩
  objs := []
  its := fun _ => none
  outs := fun _ => []

/-- The parameter objects in a constraint object. -/
def CKind.paramIds : CKind → List Nat
  | .expr e => e.params
  | _ => []

/-- What a program does. -/
inductive Op where
  /-- `models[m].add_int_variable(domain, name=name)` -/
  | addInt (m : Nat) (domain : List Int) (name : Option Name)
  /-- `models[m].add_parameter(value, name=name)` -/
  | addParam (m : Nat) (value : Int) (name : Option Name)
  /-- `models[m].add_constraint(…)` of a bool or an expression, or `models[m].add_all_different_constraint(…)`: a new constraint object -/
  | addCon (m : Nat) (k : CKind)
  /-- a new constraint object, `ExpressionConstraint(…)` and so on -/
  | newCon (k : CKind)
  /-- `models[m].add_constraint(c)` for constraint object number `i` -/
  | addObject (m : Nat) (i : Nat)
  /-- `parameter.value = v` -/
  | setParam (i : Nat) (v : Int)
  /-- assigning to the settings of `solvers[s]` -/
  | config (s : Nat) (t : Solver)
  /-- one step of iteration `i` -/
  | next (i : Nat)

/-- The effect of a method of `models[m]`. -/
def Session.api {α} (s : Session) (m : Nat) (f : Api α) : Session :=
  let w := (f ⟨s.models m, s.heap⟩).1
  { s with models := fun j => if j = m then w.model else s.models j, heap := w.heap }

/-- A new constraint object. -/
def Session.create (s : Session) (k : CKind) : Session :=
  { s with heap := (s.heap.newConstraint k).2, objs := s.objs ++ [some k] }

/-- The first step of iteration `i`: for `optimize` it makes the constraints of the objectives (solver.py:407-412), then `solve` begins
(solver.py:154-222). -/
def Session.start (calls : Nat → SolveCall) (s : Session) (i : Nat) : Session :=
  let c := calls i
  let a := c.effective (s.solvers c.solver) s.objs
  match makeConstraints c.objectives ⟨s.models c.model, s.heap⟩ with
  | (w, .error e) => { s with
      models := fun j => if j = c.model then w.model else s.models j
      heap := w.heap
      its := fun j => if j = i then some ⟨a.cfg, .init w.model, [], .idle (.raised e)⟩ else s.its j }
  | (w, .ok ks) =>
    let (h, info, g) := startSolve (a.withObjectives ks) w.model w.heap
    { s with
      models := fun j => if j = c.model then w.model else s.models j
      heap := h
      objs := s.objs ++ ks.map (fun _ => none)
      its := fun j => if j = i then some ⟨a.cfg, info, ks, g⟩ else s.its j }

/-- One step of the program. Exceptions of methods are caught by the program. Nothing happens where an object is used that does not exist. -/
def Session.step (calls : Nat → SolveCall) (s : Session) : Op → Session
  | .addInt m d n => s.api m (addIntVariable d n)
  | .addParam m v n => s.api m (addParameter v n)
  | .addCon m k =>
    if k.paramIds.all (· < s.heap.nparams) then (s.create k).api m (addConstraint (.constraint ⟨s.heap.ncons, k⟩)) else s
  | .newCon k => if k.paramIds.all (· < s.heap.nparams) then s.create k else s
  | .addObject m i => match objectAt s.objs i with
    | some c => s.api m (addConstraint (.constraint c))
    | none => s
  | .setParam i v => { s with heap := s.heap.setParam i v }
  | .config j t => { s with solvers := fun i => if i = j then t else s.solvers i }
  | .next i => match s.its i with
    | none => s.start calls i
    | some it =>
      let (it', h, new) := it.advance s.heap
      { s with
        heap := h
        its := fun j => if j = i then some it' else s.its j
        outs := fun j => if j = i then s.outs j ++ new else s.outs j }

/-- A whole program. -/
def Session.run (calls : Nat → SolveCall) (ops : List Op) (s : Session) : Session := ops.foldl (Session.step calls) s

end Satisfy
