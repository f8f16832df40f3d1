import Verif.Build
/-!
# graph_labeling.py

A graph is what the code asks of it: the list `graph.nodes()` and the list `graph.edges()` (networkx objects are not modelled). The
selection policy that the class sets by default is part of the arbitrary solver settings.
-/

namespace Satisfy

/-- `d[k]` for a dict with arbitrary keys. -/
def aat {α β : Type} [DecidableEq α] (d : List (α × β)) (k : α) : Res β :=
  match aget d k with
  | some v => .ok v
  | none => .error .keyError

section
variable {α β : Type} [DecidableEq α]

/-- `tuple(self._labels)`: the keys `0, 1, …` of `{label_id: label for label_id, label in enumerate(labels)}`
(graph_labeling.py:15-16). -/
def labelIds (labels : List β) : List Int := (List.range labels.length).map Int.ofNat

/-- `labels[i]` on that dict (graph_labeling.py:31). -/
def labelAt (labels : List β) (i : Int) : Res β :=
  if i < 0 then .error .keyError
  else match labels[i.toNat]? with
    | some l => .ok l
    | none => .error .keyError

/-- The loop over the nodes (graph_labeling.py:19-20) with the dict `variables` so far. -/
def graphNodes (labels : List β) : List α → List (α × Expr) → Api (List (α × Expr))
  | [], d => return d
  | node :: nodes, d => do
    let v ← addIntVariable (labelIds labels) (some ("n_" ++ toString d.length))
    graphNodes labels nodes (aset d node v)

/-- One round of the loop over the edges (graph_labeling.py:21-22). -/
def graphEdge (d : List (α × Expr)) (e : α × α) : Api Unit := do
  let x ← Api.lift (aat d e.1)
  let y ← Api.lift (aat d e.2)
  addConstraint (cmpArg .ne (.expr x) (.expr y))

/-- `GraphLabelingSolver.__init__` (graph_labeling.py:10-23): the result is `self._variables`. -/
def graphBuild (nodes : List α) (edges : List (α × α)) (labels : List β) : Api (List (α × Expr)) := do
  let d ← graphNodes labels nodes []
  let _ ← Api.each (graphEdge d) edges
  return d

/-- The body of the loop in `__iter__` (graph_labeling.py:29-32): `node_labels`, in insertion order. -/
def graphDecode (d : List (α × Expr)) (labels : List β) (σ : Subst) : Res (List (α × β)) :=
  Res.each (fun p : α × Expr => do
    let i ← σ.at p.2.name
    return (p.1, ← labelAt labels i)) d

end
end Satisfy
