import Verif.Model
import Verif.Search
/-!
# solver.py: `_setup`, variable ordering, `solve`
-/

namespace Satisfy

/-- `VarSelectionPolicy` (solver.py:29-37). -/
inductive Policy where
  | ordered | reversed | random | groups | minBound | maxBound | minConstraint | maxConstraint
  deriving DecidableEq

/-- The attributes of a `Solver` that configure it (solver.py:41-55). The property setters turn
`INFINITY` into `None`, which is `none` here. -/
structure Solver where
  policy : Policy := .groups
  timeout : Option Int := none
  limit : Option Int := none
  compile : Bool := true

/-- `ModelInfo` (solver.py:19-21). `defaultdict`s are total functions. `sizes` are the lengths of the
declared domains; `group_bounds`/`group_sizes` are computed by the code but never influence anything
except by raising, see `checkGroups`. -/
structure Info where
  vars : Dict (List Int)
  cons : Name → List Constraint
  ad : Name → List Name
  bounds : Name → Nat
  sizes : Name → Nat
  groups : List (List Name)
  varGroups : Name → List Nat

/-- `pure_variables` (solver.py:97): the variables, not the parameters, with their domains. -/
def Model.pureVars (m : Model) : Dict (List Int) :=
  m.vars.filterMap (fun p => p.2.domain.map (fun d => (p.1, d)))

/-- The initial values in `_setup` (solver.py:96-102). -/
def Info.init (m : Model) : Info where
  vars := m.pureVars
  cons := fun _ => []
  ad := fun _ => []
  bounds := fun _ => 0
  sizes := fun x => ((m.pureVars.get? x).getD []).length
  groups := []
  varGroups := fun _ => []

/-- solver.py:124-127: keep the values of the domain for which the single-variable constraint is true. -/
def filterDomain (h : Heap) (c : Constraint) (x : Name) : List Int → Res (List Int)
  | [] => .ok []
  | v :: vs => do
    let r ← c.evaluate h [(x, v)]
    let rest ← filterDomain h c x vs
    return if truthy r then v :: rest else rest

/-- `var_bounds[var_name] += len(c_vars) - 1` (solver.py:108-110). Only entries of `pure_variables`
exist in the Python dict; the others are never read. -/
def addBounds (vs : List Name) (b : Name → Nat) : Name → Nat := fun x =>
  if x ∈ vs then b x + (vs.length - 1) else b x

/-- One pass of the loop of `_setup` (solver.py:105-132). The heap changes (compilation) survive an
exception. -/
def setupOne (comp : Bool) (c : Constraint) (h : Heap) (info : Info) : Heap × Res Info :=
  let h := if comp then c.compile h else h
  let vs := c.vars
  let info := { info with bounds := addBounds vs info.bounds }
  match c.kind with
  | .allDiff _ =>
    let gid := info.groups.length
    (h, .ok { info with
      groups := info.groups ++ [vs]
      varGroups := fun x => if x ∈ vs then info.varGroups x ++ [gid] else info.varGroups x
      ad := fun x => if vs.length > 1 ∧ x ∈ vs then info.ad x ++ vs.filter (· ≠ x) else info.ad x })
  | _ =>
    match vs with
    | [x] =>
      match info.vars.get? x with
      | some d => match filterDomain h c x d with
        | .ok d' => (h, .ok { info with vars := info.vars.set x d' })
        | .error e => (h, .error e)
      | none => (h, .ok info)
    | _ => (h, .ok { info with cons := fun x => if x ∈ vs then info.cons x ++ [c] else info.cons x })

/-- The loop of `_setup` (solver.py:104-132). -/
def setupLoop (comp : Bool) : List Constraint → Heap → Info → Heap × Res Info
  | [], h, info => (h, .ok info)
  | c :: cs, h, info => match setupOne comp c h info with
    | (h', .ok info') => setupLoop comp cs h' info'
    | (h', .error e) => (h', .error e)

/-- The loop over the groups (solver.py:135-137): `KeyError` if an all-different constraint names
something that is not a variable of the model, `ValueError` (max of nothing) if it is empty. -/
def checkGroups (vars : Dict (List Int)) : List (List Name) → Res Unit
  | [] => .ok ()
  | g :: gs =>
    if g.any (fun x => !vars.has x) then .error .keyError
    else if g.isEmpty then .error .valueError
    else checkGroups vars gs

/-- `_setup(model, additional_constraints=adds)` (solver.py:95-148). -/
def setup (comp : Bool) (m : Model) (adds : List Constraint) (h : Heap) : Heap × Res Info :=
  match setupLoop comp (m.constraints ++ adds) h (.init m) with
  | (h', .error e) => (h', .error e)
  | (h', .ok info) => match checkGroups info.vars info.groups with
    | .error e => (h', .error e)
    | .ok () => (h', .ok info)

/-- `var_group_prio[x]` (solver.py:183-188): the smallest group id, or -1. -/
def groupPrio (info : Info) (x : Name) : Int :=
  match (info.varGroups x).min? with
  | some g => g
  | none => -1

/-- Comparison of the sort keys `(var_group_prio, var_bounds, var_sizes)` (solver.py:189). -/
def groupsLt (info : Info) (x y : Name) : Bool :=
  if groupPrio info x < groupPrio info y then true
  else if groupPrio info y < groupPrio info x then false
  else if info.bounds x < info.bounds y then true
  else if info.bounds y < info.bounds x then false
  else decide (info.sizes x < info.sizes y)

/-- `len(model.get_var_domain(x))` (solver.py:200, 203). -/
def Model.domSize (m : Model) (x : Name) : Nat := ((m.pureVars.get? x).getD []).length

/-- The order in which variables are bound (solver.py:172-207). `shuffle` is `random.shuffle`. -/
def orderVars (p : Policy) (shuffle : List Name → List Name) (m : Model) (info : Info) : List Name :=
  let names := info.vars.keys
  match p with
  | .ordered => names
  | .groups => (pySorted (fun x y => groupsLt info y x) names).reverse
  | .random => shuffle names
  | .reversed => names.reverse
  | .minBound => pySorted (fun x y => decide (m.domSize x < m.domSize y)) names
  | .maxBound => pySorted (fun x y => decide (m.domSize y < m.domSize x)) names
  | .minConstraint => pySorted (fun x y => decide ((info.cons x).length < (info.cons y).length)) names
  | .maxConstraint => pySorted (fun x y => decide ((info.cons y).length < (info.cons x).length)) names

/-- The `for constraint in var_constraints[var_name]` loop (solver.py:251-255): `false` as soon as one is
unsatisfied. -/
def noneUnsat (h : Heap) (σ : Subst) : List Constraint → Res Bool
  | [] => .ok true
  | c :: cs => do
    if ← c.unsatisfied h σ then return false
    else noneUnsat h σ cs

/-- Is `var_name == value` acceptable (solver.py:244-258)? -/
def acceptable (h : Heap) (info : Info) (x : Name) (σ : Subst) (v : Int) : Res Bool :=
  let σ' := σ.set x v
  if (info.ad x).any (fun y => σ'.get? y = some v) then .ok false
  else noneUnsat h σ' (info.cons x)

/-- The candidate values (solver.py:243-258) among `dom`. -/
def candLoop (h : Heap) (info : Info) (x : Name) (σ : Subst) : List Int → Res (List Int)
  | [] => .ok []
  | v :: vs => do
    let ok ← acceptable h info x σ v
    let rest ← candLoop h info x σ vs
    return if ok then v :: rest else rest

/-- The candidate values of `x` (solver.py:241-258). -/
def candidates (info : Info) (h : Heap) (x : Name) (σ : Subst) : Res (List Int) :=
  match info.vars.get? x with
  | none => .error .keyError
  | some d => candLoop h info x σ d

/-- What a call of `solve` depends on besides the model: the solver's settings with the per-call
arguments already applied (solver.py:156-159), the additional constraints, and the environment
(`random.shuffle`, clock). -/
structure SolveArgs where
  solver : Solver
  adds : List Constraint := []
  shuffle : List Name → List Name := id
  clock : Nat → Int := fun _ => 0

def SolveArgs.cfg (a : SolveArgs) : RunCfg := ⟨a.solver.timeout, a.solver.limit, a.clock⟩

/-- The generator before its first step, with nothing to do. -/
def Gen.idle (ph : Phase) : Gen := ⟨⟨[], []⟩, .new, 0, 0, none, ph⟩

/-- From the first `next()` up to the loop (solver.py:155-226): the new heap, the `ModelInfo` (if the loop
is reached) and the generator. -/
def startSolve (a : SolveArgs) (m : Model) (h : Heap) : Heap × Info × Gen :=
  if !m.solvable then (h, .init m, .idle .finished)
  else match setup a.solver.compile m a.adds h with
    | (h', .error e) => (h', .init m, .idle (.raised e))
    | (h', .ok info) =>
      match orderVars a.solver.policy a.shuffle m info with
      | [] => (h', info, .idle .finished)
      | x :: xs =>
        (h', info, (Gen.idle .running).withTimer (Timer.new.doStart (a.clock 0))
          (fun g => { g with search := ⟨[(x :: xs, [])], []⟩ }))

/-- `n` steps of iterating `solver.solve(model, **args)`, the consumer running `act` at each solution. -/
def solveRun (a : SolveArgs) (m : Model) (act : Heap → Subst → Res Heap) (n : Nat) (h : Heap) :
    List Subst × Gen × Heap :=
  let (h', info, g) := startSolve a m h
  sysRun a.cfg (candidates info) act n g h'

/-- A consumer that changes nothing the search can see. -/
def passive : Heap → Subst → Res Heap := fun h _ => .ok h

end Satisfy
