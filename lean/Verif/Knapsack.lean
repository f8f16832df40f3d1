import Verif.Build
import Verif.Optimize
/-!
# knapsack.py

Values, capacities and weights are ints or something else (`none`). The rows of weights are lists or tuples; the collection of rows is
something that can be iterated again and again (`seq`) or only once (`once`: a generator, `zip(…)`, `iter(…)`).
-/

namespace Satisfy

/-- An iterable. -/
inductive Iter (α : Type) where
  | seq (l : List α)
  | once (l : List α)

/-- What the first loop over it sees. -/
def Iter.first {α : Type} : Iter α → List α
  | .seq l => l
  | .once l => l

/-- What later loops over it see, given what the first one made of the elements. -/
def Iter.again {α β : Type} (it : Iter α) (l : List β) : List β :=
  match it with
  | .seq _ => l
  | .once _ => []

/-- `isinstance(v, int)` or `TypeError` (knapsack.py:24-26, 28-30, 38-40). -/
def asInt : Option Int → Res Int
  | some v => .ok v
  | none => .error .typeError

/-- The loop over the weights (knapsack.py:31-41): `n` values, `m` capacities, `k` rows so far. -/
def knapRows (n m : Nat) : Nat → List (List (Option Int)) → Res (List (List Int))
  | _, [] => .ok []
  | k, row :: rows =>
    if k ≥ n then .error .valueError
    else if row.length ≠ m then .error .valueError
    else do
      let r ← Res.each asInt row
      let rs ← knapRows n m (k + 1) rows
      return r :: rs

/-- The attributes of a `KnapsackOptimizer` (knapsack.py:48-52); `weights` is what iterating `self._weights` yields. -/
structure Knapsack where
  values : List Int
  capacities : List Int
  weights : List (List Int)
  vars : List Expr

/-- `sum(var * weight[idx] for var, weight in zip(variables, weights))` (knapsack.py:47). -/
def knapLoad (vars : List Expr) (weights : List (List Int)) (j : Nat) : Res Obj := do
  let os ← Res.each (fun p : Expr × List Int => do return (Obj.expr p.1).mul (.int (← listAt p.2 j))) (vars.zip weights)
  return Obj.pySum os

/-- `KnapsackOptimizer.__init__` (knapsack.py:18-52); `none`: without values it returns before setting its attributes. -/
def knapBuild (values capacities : List (Option Int)) (weights : Iter (List (Option Int))) : Api (Option Knapsack) :=
  if values.isEmpty then return none
  else do
    let vs ← Api.lift (Res.each asInt values)
    let cs ← Api.lift (Res.each asInt capacities)
    let rows ← Api.lift (knapRows vs.length cs.length 0 weights.first)
    if rows.length < vs.length then Api.raise .valueError
    else do
      let vars ← Api.each (fun i => addBoolVariable (some ("i_" ++ toString i))) (List.range vs.length)
      let ws := weights.again rows
      let _ ← Api.each (fun p : Int × Nat => do
        let o ← Api.lift (knapLoad vars ws p.2)
        addConstraint (cmpArg .le o (.int p.1))) cs.zipIdx
      return some ⟨vs, cs, ws, vars⟩

/-- `KnapsackSolution` (knapsack.py:12-14). -/
structure KnapSolution where
  isOptimal : Bool
  solution : Option (List Int)
  value : Option Int
  weights : Option (List Int)
  deriving DecidableEq

/-- The objective (knapsack.py:61): there is a variable, so the sum is an expression. -/
def Knapsack.objective (k : Knapsack) : Objective :=
  ⟨true, coerce (Obj.pySum ((k.vars.zip k.values).map (fun p => (Obj.expr p.1).mul (.int p.2))))⟩

/-- What is made of a solution (knapsack.py:65-67). -/
def Knapsack.decode (k : Knapsack) (isOptimal : Bool) (σ : Subst) : Res KnapSolution := do
  let sol ← Res.each (fun x : Expr => σ.at x.name) k.vars
  let value := ((sol.zip k.values).map (fun p => p.1 * p.2)).sum
  let ws ← Res.each (fun j : Nat => do
    let l ← Res.each (fun p : Int × List Int => do return p.1 * (← listAt p.2 j)) (sol.zip k.weights)
    return l.sum) (List.range k.capacities.length)
  return ⟨isOptimal, some sol, some value, some ws⟩

/-- `KnapsackOptimizer.__call__` (knapsack.py:54-76) after `n` steps of the search; `none` while it is still going on. -/
def knapCall (a : SolveArgs) (k : Option Knapsack) (n : Nat) (w : World) : Option (Res KnapSolution) :=
  match k with
  | none => some (.error .attributeError)
  | some k =>
    match optimalSolution (optimizeRun a [k.objective] n w) with
    | none => none
    | some (.error e) => some (.error e)
    | some (.ok r) =>
      match r.solution with
      | none => some (.ok ⟨r.isOptimal, none, none, none⟩)
      | some σ => some (k.decode r.isOptimal σ)

end Satisfy
