import Verif.Constraint
/-!
# model.py

A call of a `Model` method maps a world (the model and the heap of mutable objects) to a world and a
result; the world after an exception is part of the result.
-/

namespace Satisfy

/-- `VariableInfo` (model.py:26): `domain` is `None` for parameters. The `variable` field is
determined by the key, for parameters together with the object identity. -/
structure VarInfo where
  domain : Option (List Int)
  param : Option Nat := none
  deriving DecidableEq

/-- The attributes of `Model` (model.py:32-36). -/
structure Model where
  vars : Dict VarInfo
  constraints : List Constraint
  solvable : Bool

/-- `Model()` (model.py:32-36). -/
def Model.empty : Model := ⟨[], [], true⟩

structure World where
  model : Model
  heap : Heap

/-- A Python method: new world and result or exception. -/
abbrev Api (α : Type) := World → World × Res α

def Api.pure {α} (a : α) : Api α := fun w => (w, .ok a)
def Api.raise {α} (e : Err) : Api α := fun w => (w, .error e)
def Api.bind {α β} (f : Api α) (g : α → Api β) : Api β := fun w =>
  match f w with
  | (w', .ok a) => g a w'
  | (w', .error e) => (w', .error e)

instance : Monad Api where
  pure := Api.pure
  bind := Api.bind

def Api.model : Api Model := fun w => (w, .ok w.model)
def Api.setModel (m : Model) : Api Unit := fun w => ({ w with model := m }, .ok ())
/-- Run a computation that may raise. -/
def Api.lift {α} (r : Res α) : Api α := fun w => (w, r)

/-- `__re_name__.match(name)` for the regex `^[a-zA-Z]\w*$` (model.py:30, 47-49). `$` also matches
before one final newline. ASCII only: for non-ASCII names (where `\w` is wider) the model says no. -/
def checkName (name : Name) : Bool :=
  let cs := name.toList
  let cs := if cs.getLast? = some '\n' then cs.dropLast else cs
  match cs with
  | [] => false
  | c :: cs => c.isAlpha && cs.all isWord

/-- `_get_variable` / the naming half of `_get_parameter` (model.py:51-68) with the prefix `_v` / `_p`. -/
def getName (pre : String) (name : Option Name) : Api Name := do
  let m ← Api.model
  match name with
  | none => return pre ++ toString m.vars.length
  | some name =>
    if !checkName name then Api.raise .valueError
    else if m.vars.has name then Api.raise .valueError
    else return name

/-- `add_parameter` (model.py:70-75); the result is the parameter object. -/
def addParameter (value : Int) (name : Option Name) : Api Expr := do
  let name ← getName "_p" name
  fun w =>
    let (i, h) := w.heap.newParam value
    ({ model := { w.model with vars := w.model.vars.set name ⟨none, some i⟩ }, heap := h },
      .ok (.param i name))

/-- Is there a duplicate: the loop of `add_int_variable` (model.py:78-82). -/
def hasDup : List Int → Bool
  | [] => false
  | v :: vs => vs.contains v || hasDup vs

/-- `add_int_variable` (model.py:77-87). -/
def addIntVariable (domain : List Int) (name : Option Name) : Api Expr := do
  if hasDup domain then Api.raise .valueError
  else do
    let name ← getName "_v" name
    let m ← Api.model
    Api.setModel { m with vars := m.vars.set name ⟨some domain, none⟩ }
    return .var name

/-- `add_bool_variable` (model.py:89-90). -/
def addBoolVariable (name : Option Name) : Api Expr := addIntVariable [0, 1] name

/-- `set_solvable` (model.py:95-96): assigns the name-mangled attribute `_Model__unsolvable`, which
nothing reads. -/
def setSolvable (_solvable : Bool) : Api Unit := return ()

/-- What a caller may pass to `add_constraint`. A Python bool (e.g. the result of comparing two
constants) is one of the accepted kinds; anything else that is neither an `Expression` nor a
`Constraint` is `other`. -/
inductive CArg where
  | bool (b : Bool)
  | expr (e : Expr)
  | constraint (c : Constraint)
  | other

/-- New constraint object. -/
def newConstraint (k : CKind) : Api Constraint := fun w =>
  let (c, h) := w.heap.newConstraint k
  ({ w with heap := h }, .ok c)

/-- The conversions at the head of `add_constraint` (model.py:99-104). -/
def toConstraint : CArg → Api Constraint
  | .bool b => newConstraint (.const b)
  | .expr e => newConstraint (.expr e)
  | .constraint c => return c
  | .other => Api.raise .typeError

/-- `add_constraint` (model.py:98-117). -/
def addConstraint (arg : CArg) : Api Unit := do
  let c ← toConstraint arg
  let varNames := c.vars
  let finish : Api Unit := do
    let m ← Api.model
    if varNames.any (fun x => !m.vars.has x) then Api.raise .valueError
    else Api.setModel { m with constraints := m.constraints ++ [c] }
  if varNames.isEmpty then do
    let value ← (fun w => (w, c.evaluate w.heap []) : Api Int)
    if truthy value then return ()
    else do
      let m ← Api.model
      Api.setModel { m with solvable := false }
      finish
  else finish

/-- `add_all_different_constraint` (model.py:119-120), given the names of the variables. -/
def addAllDifferent (names : List Name) : Api Unit := do
  let c ← newConstraint (.allDiff names)
  addConstraint (.constraint c)

/-- `get_var_domain` (model.py:122-127). -/
def Model.getVarDomain (m : Model) (x : Name) : Res (Option (List Int)) :=
  match m.vars.get? x with
  | none => .error .keyError
  | some i => .ok i.domain

/-- `get_variable` (model.py:92-93): the object made by `add_int_variable`, `add_bool_variable` or `add_parameter`. -/
def Model.getVariable (m : Model) (x : Name) : Res Expr :=
  match m.vars.get? x with
  | none => .error .keyError
  | some i => .ok (match i.param with
    | none => .var x
    | some k => .param k x)

/-- The calls that build a model, plus parameter assignment, for histories. -/
inductive Call where
  | addInt (domain : List Int) (name : Option Name)
  | addBool (name : Option Name)
  | addParam (value : Int) (name : Option Name)
  | addCon (arg : CArg)
  | addAllDiff (names : List Name)
  | setSolvable (b : Bool)
  | setParam (i : Nat) (v : Int)

def Call.run : Call → Api Unit
  | .addInt d n => do let _ ← addIntVariable d n
  | .addBool n => do let _ ← addBoolVariable n
  | .addParam v n => do let _ ← addParameter v n
  | .addCon a => addConstraint a
  | .addAllDiff ns => addAllDifferent ns
  | .setSolvable b => Satisfy.setSolvable b
  | .setParam i v => fun w => ({ w with heap := w.heap.setParam i v }, .ok ())

/-- Run calls one after the other; exceptions are caught by the caller, who continues. -/
def runCalls : List Call → World → World
  | [], w => w
  | c :: cs, w => runCalls cs (c.run w).1

end Satisfy
