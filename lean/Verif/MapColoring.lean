import Verif.Graph
import Verif.Image
import Verif.SpecMap
/-!
# tool/ascii_map_coloring.py

A map is a list of rows of characters (a string is split at newlines first: `pySplit`). Python sets of positions are lists without
repetitions; wherever the code iterates over one, the order is given by an arbitrary function `ord`. `networkx.Graph` is not modelled:
`graph.nodes()` and `graph.edges()` are the lists of what was added, in the order of addition (repeated `add_node` calls change
nothing). `termcolor.colored(text, color)` is the pair of its arguments; blanks of the result are `none`. The selection policy and the
limit that the class sets by default are part of the arbitrary solver settings.

The `while` loops are written with a bound on the number of rounds: `none` stands for a loop that is still running after that many.
-/

namespace Satisfy

/-- `OFFSETS` (ascii_map_coloring.py:18-27). -/
def mapOffsets : List Pos := [(-1, -1), (-1, 0), (-1, 1), (0, -1), (0, 1), (1, -1), (1, 0), (1, 1)]

/-- `rows[r][c]`. -/
def gridAt {α : Type} (rows : List (List α)) (p : Pos) : Res α := do
  let row ← listAt rows p.1
  listAt row p.2

/-- `rows[r][c] = x`. -/
def gridSet {α : Type} (rows : List (List α)) (p : Pos) (x : α) : Res (List (List α)) := do
  let row ← listAt rows p.1
  let row ← listSet row p.2 x
  listSet rows p.1 row

/-- `s.add(x)`. -/
def setAdd {α : Type} [DecidableEq α] (s : List α) (x : α) : List α := if x ∈ s then s else s ++ [x]

/-- The state of `search_and_cancel_group`: `rows`, `group`, `new_positions`. -/
structure Flood where
  rows : List (List Char)
  group : List Pos
  new : List Pos

/-- The loop over the offsets (ascii_map_coloring.py:40-45). -/
def floodNeighbors (rstop cstop : Nat) (p : Pos) (group : List Pos) : List Pos → List Pos → List Pos
  | [], new => new
  | o :: os, new =>
    let q : Pos := (p.1 + o.1, p.2 + o.2)
    let new := if 0 ≤ q.1 ∧ q.1 < rstop ∧ 0 ≤ q.2 ∧ q.2 < cstop then (if q ∉ group then setAdd new q else new) else new
    floodNeighbors rstop cstop p group os new

/-- One position (ascii_map_coloring.py:37-45). -/
def floodCell (value : Char) (rstop cstop : Nat) (p : Pos) (st : Flood) : Res Flood := do
  let x ← gridAt st.rows p
  if x = value then do
    let rows ← gridSet st.rows p '.'
    let group := setAdd st.group p
    return ⟨rows, group, floodNeighbors rstop cstop p group mapOffsets st.new⟩
  else return st

/-- The loop over the positions (ascii_map_coloring.py:36-45). -/
def floodRound (value : Char) (rstop cstop : Nat) : List Pos → Flood → Res Flood
  | [], st => .ok st
  | p :: ps, st => do
    let st ← floodCell value rstop cstop p st
    floodRound value rstop cstop ps st

/-- The `while` loop (ascii_map_coloring.py:34-46), at most `fuel` rounds: the new `rows`, and `group`. -/
def flood (ord : List Pos → List Pos) (value : Char) (rstop cstop : Nat) : Nat → List (List Char) → List Pos → List Pos →
    Res (Option (List (List Char) × List Pos))
  | fuel, rows, group, positions =>
    if positions.isEmpty then .ok (some (rows, group))
    else match fuel with
      | 0 => .ok none
      | fuel + 1 => do
        let st ← floodRound value rstop cstop (ord positions) ⟨rows, group, []⟩
        flood ord value rstop cstop fuel st.rows st.group st.new

/-- The `for` loop up to its `break` (ascii_map_coloring.py:60-62): the first cell that is not blank. -/
def findCell (rows : List (List Char)) : List Pos → Res (Option (Pos × Char))
  | [] => .ok none
  | p :: ps => do
    let x ← gridAt rows p
    if x ≠ ' ' ∧ x ≠ '.' then return some (p, x) else findCell rows ps

/-- `itertools.product(range(r_start, num_rows), range(num_cols))`. -/
def mapCells (rstart : Int) (nr nc : Nat) : List Pos := (pyRange rstart nr).flatMap (fun r => (pyRange 0 nc).map (fun c => (r, c)))

/-- The `while True` loop (ascii_map_coloring.py:59-70), at most `fuel` rounds: `groups`. -/
def mapGroups (ord : List Pos → List Pos) (nr nc : Nat) : Nat → Int → List (List Char) → List (List Pos) → Res (Option (List (List Pos)))
  | 0, _, _, _ => .ok none
  | fuel + 1, rstart, rows, groups => do
    match ← findCell rows (mapCells rstart nr nc) with
    | none => return some groups
    | some (p, value) =>
      match ← flood ord value nr nc (nr * nc + 1) rows [] [p] with
      | none => return none
      | some (rows, group) => mapGroups ord nr nc fuel p.1 rows (groups ++ [group])

/-- `g0_neighbors` (ascii_map_coloring.py:75-78). Only used for membership, so the order does not matter. -/
def mapNeighbors (group : List Pos) : List Pos := group.flatMap (fun p => mapOffsets.map (fun o => (p.1 + o.1, p.2 + o.2)))

/-- The edges from `gid0` (ascii_map_coloring.py:79-82): `groups` are the later ones, from number `gid1` on. -/
def mapEdgesFrom (gid0 : Nat) (neighbors : List Pos) : Nat → List (List Pos) → List (Nat × Nat)
  | _, [] => []
  | gid1, group1 :: groups =>
    if group1.any (fun p => neighbors.contains p) then (gid0, gid1) :: mapEdgesFrom gid0 neighbors (gid1 + 1) groups
    else mapEdgesFrom gid0 neighbors (gid1 + 1) groups

/-- The edges of the graph (ascii_map_coloring.py:73-82), from number `gid0` on. The last group is left out by the code; there is nothing
behind it. -/
def mapEdges : Nat → List (List Pos) → List (Nat × Nat)
  | _, [] => []
  | gid0, group0 :: groups => mapEdgesFrom gid0 (mapNeighbors group0) (gid0 + 1) groups ++ mapEdges (gid0 + 1) groups

/-- `groups` (ascii_map_coloring.py:49-70). `max()` of nothing raises. -/
def mapRegions (ord : List Pos → List Pos) (map : List (List Char)) : Res (Option (List (List Pos))) :=
  if map.isEmpty then .error .valueError
  else
    let nc := maxLength map
    let rows := map.map (fun row => row ++ List.replicate (nc - row.length) ' ')
    mapGroups ord map.length nc (map.length * nc + 1) 0 rows []

/-- `AsciiMapColoringSolver.__init__` (ascii_map_coloring.py:14-87): `self._groups` and `self._variables`. -/
def mapBuild {β : Type} (ord : List Pos → List Pos) (map : List (List Char)) (colors : List β) : Api (Option (List (List Pos) × List (Nat × Expr))) := do
  match ← Api.lift (mapRegions ord map) with
  | none => return none
  | some groups =>
    let d ← graphBuild (List.range groups.length) (mapEdges 0 groups) colors
    return some (groups, d)

/-- `glabels` (ascii_map_coloring.py:97). -/
def glabels : List Char := "0123456789ABCDEFGHIJKLMNOPQRSTUVWXYZ".toList

section
variable {β : Type}

/-- The inner loop (ascii_map_coloring.py:103-104). -/
def paintGroup (value : Char × β) : List Pos → List (List (Option (Char × β))) → Res (List (List (Option (Char × β))))
  | [], out => .ok out
  | p :: ps, out => do
    let out ← gridSet out p (some value)
    paintGroup value ps out

/-- The outer loop (ascii_map_coloring.py:100-104), from number `gid` on. -/
def paintGroups (ord : List Pos → List Pos) (solution : List (Nat × β)) : Nat → List (List Pos) → List (List (Option (Char × β))) →
    Res (List (List (Option (Char × β))))
  | _, [], out => .ok out
  | gid, group :: groups, out => do
    let color ← aat solution gid
    let label ← listAt glabels ((gid : Int) % (glabels.length : Int))
    let out ← paintGroup (label, color) (ord group) out
    paintGroups ord solution (gid + 1) groups out

/-- The body of the loop in `__iter__` (ascii_map_coloring.py:98-105), with `GraphLabelingSolver.__iter__`. -/
def mapDecode (ord : List Pos → List Pos) (map : List (List Char)) (groups : List (List Pos)) (d : List (Nat × Expr)) (colors : List β) (σ : Subst) :
    Res (List (List (Option (Char × β)))) := do
  let solution ← graphDecode d colors σ
  paintGroups ord solution 0 groups (map.map (fun row => row.map (fun _ => none)))

end
end Satisfy
