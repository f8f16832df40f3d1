import Verif.Compile
/-!
# constraint.py

A constraint object is an identity plus its immutable part; the mutable `_evaluate_function` lives in
the `Heap` together with the values of `Parameter` objects.
-/

namespace Satisfy

/-- The immutable part of a constraint: `ConstConstraint` (constraint.py:42-54),
`ExpressionConstraint` (57-86), `AllDifferentConstraint` (89-94). -/
inductive CKind where
  | const (b : Bool)
  | expr (e : Expr)
  | allDiff (names : List Name)

/-- A constraint object. -/
structure Constraint where
  id : Nat
  kind : CKind

/-- The mutable objects: `Parameter._value` (expression.py:772) by parameter identity, and
`ExpressionConstraint._evaluate_function` (constraint.py:63) by constraint identity.
`nparams`/`ncons` are the identities the next objects will get. -/
structure Heap where
  params : Store
  fns : Nat → Option Compiled
  nparams : Nat
  ncons : Nat

/-- `vars()`: the frozenset of variable names (constraint.py:16-17, 32-33; 44, 62). -/
def CKind.vars : CKind → List Name
  | .const _ => []
  | .expr e => e.vars
  | .allDiff names => dedup names

def Constraint.vars (c : Constraint) : List Name := c.kind.vars

/-- `substitution[var_name] for var_name in names` (constraint.py:91). -/
def lookupAll (σ : Subst) : List Name → Res (List Int)
  | [] => .ok []
  | x :: xs => match σ.get? x with
    | none => .error .keyError
    | some v => do return v :: (← lookupAll σ xs)

/-- `evaluate(substitution)` (constraint.py:47-48, 76-80, 90-91). -/
def Constraint.evaluate (h : Heap) (c : Constraint) (σ : Subst) : Res Int :=
  match c.kind with
  | .const b => .ok (ofBool b)
  | .expr e => match h.fns c.id with
    | none => e.eval h.params σ
    | some f => f.call σ
  | .allDiff names => do
    let vs ← lookupAll σ (dedup names)
    return ofBool ((dedup vs).length = (dedup names).length)

/-- `unsatisfied(substitution)` (constraint.py:23-27). -/
def Constraint.unsatisfied (h : Heap) (c : Constraint) (σ : Subst) : Res Bool :=
  if c.vars.any (fun x => !σ.has x) then .ok false
  else do return !truthy (← c.evaluate h σ)

/-- `free_vars(substitution)` (constraint.py:29-30). -/
def Constraint.freeVars (c : Constraint) (σ : Subst) : List Name := c.vars.filter (fun x => !σ.has x)

/-- `is_compiled()` (constraint.py:38-39, 65-66). -/
def Constraint.isCompiled (h : Heap) (c : Constraint) : Bool :=
  match c.kind with
  | .expr _ => (h.fns c.id).isSome
  | _ => false

/-- `compile()` (constraint.py:35-36, 68-69). -/
def Constraint.compile (h : Heap) (c : Constraint) : Heap :=
  match c.kind with
  | .expr e => { h with fns := fun i => if i = c.id then some (asFunction h.params e) else h.fns i }
  | _ => h

/-- `parameter.value = v` (expression.py:778-780). -/
def Heap.setParam (h : Heap) (i : Nat) (v : Int) : Heap :=
  { h with params := fun j => if j = i then v else h.params j }

/-- A new `ExpressionConstraint`/`ConstConstraint`/`AllDifferentConstraint` object. -/
def Heap.newConstraint (h : Heap) (k : CKind) : Constraint × Heap :=
  (⟨h.ncons, k⟩, { h with ncons := h.ncons + 1, fns := fun i => if i = h.ncons then none else h.fns i })

/-- A new `Parameter` object (expression.py:769-772); its name is in the expression node. -/
def Heap.newParam (h : Heap) (v : Int) : Nat × Heap :=
  (h.nparams, { h.setParam h.nparams v with nparams := h.nparams + 1 })

end Satisfy
