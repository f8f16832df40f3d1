import Verif.Build
/-!
# nonogram.py

Clues are lists of ints, pixmaps lists of rows of ints. The solver's `rows` and `columns` are handled by two copies of the same loop; here
there is one with the prefix of the variable names as an argument.
-/

namespace Satisfy

/-- A variable with its `VarInfo` (nonogram.py:12, 38, 60). -/
structure NVar where
  var : Expr
  size : Int
  start : Int
  stop : Int

/-- The variable `x` begins behind the block before it and a gap (nonogram.py:42-45, 64-67). -/
def nonoGap (x : Expr) : Option NVar → Api Unit
  | none => return ()
  | some p => addConstraint (cmpArg .gt (.expr x) ((Obj.expr p.var).add (.int p.size)))

/-- The loop over one clue (nonogram.py:33-46, 55-68): `N` cells, `len` entries, `k`, `start`, `rem` as in the code, `prev` the variable
added before, if any. -/
def nonoLoop (pfx : String) (i : Nat) (N : Int) (len : Nat) : List Int → Nat → Int → Int → Option NVar → Api (List NVar)
  | [], _, _, _, _ => return []
  | size :: line, k, start, rem, prev => do
    let offset := size + (if (k : Int) ≠ len - 1 then 1 else 0)
    let stop := N - rem + 1
    let x ← addIntVariable (pyRange start stop) (some (pfx ++ toString i ++ "_" ++ toString k))
    let v : NVar := ⟨x, size, start, stop + size⟩
    let _ ← nonoGap x prev
    let rest ← nonoLoop pfx i N len line (k + 1) (start + offset) (rem - offset) (some v)
    return v :: rest

/-- The variables of one row or column (nonogram.py:29-46, 51-68). -/
def nonoLine (pfx : String) (N : Nat) (p : List Int × Nat) : Api (List NVar) :=
  nonoLoop pfx p.2 N p.1.length p.1 0 0 (p.1.sum + p.1.length - 1) none

/-- The expressions for one cell, seen from its row or its column (nonogram.py:73-78, 81-86). -/
def nonoSide (vs : List NVar) (c : Nat) : List Obj :=
  (vs.filter (fun v => decide (v.start ≤ (c : Int)) && decide ((c : Int) < v.stop))).map (fun v =>
    (Obj.cmp .le (.expr v.var) (.int c)).and (Obj.cmp .lt (.int c) ((Obj.expr v.var).add (.int v.size))))

/-- The constraint for the cell in row `r`, column `c` (nonogram.py:73-99). -/
def nonoCell (rowVars colVars : List (List NVar)) (k : Nat × Nat) : Api Unit :=
  let rs := nonoSide (rowVars.getD k.1 []) k.2
  let cs := nonoSide (colVars.getD k.2 []) k.1
  if rs.isEmpty && cs.isEmpty then return ()
  else addConstraint (cmpArg .eq (Obj.pySum rs) (Obj.pySum cs))

/-- The cells in the order of the loops (nonogram.py:71-72). -/
def nonoCells (nr nc : Nat) : List (Nat × Nat) := (List.range nr).flatMap (fun r => (List.range nc).map (fun c => (r, c)))

/-- `NonogramSolver.__init__` (nonogram.py:15-105): the variables of the rows. -/
def nonoBuild (rows cols : List (List Int)) : Api (List (List NVar)) := do
  let rowVars ← Api.each (nonoLine "r" cols.length) rows.zipIdx
  let colVars ← Api.each (nonoLine "c" rows.length) cols.zipIdx
  let _ ← Api.each (nonoCell rowVars colVars) (nonoCells rows.length cols.length)
  return rowVars

/-- `for c in …: pixmap[r][c] = 1` (nonogram.py:127-128). -/
def nonoFill : List Int → List Int → Res (List Int)
  | l, [] => .ok l
  | l, c :: cs => do
    let l' ← listSet l c 1
    nonoFill l' cs

/-- The loop over the variables of a row (nonogram.py:124-128). -/
def nonoRow (σ : Subst) : List Int → List NVar → Res (List Int)
  | l, [] => .ok l
  | l, v :: vs => do
    let start ← σ.at v.var.name
    let l' ← nonoFill l (pyRange start (start + v.size))
    nonoRow σ l' vs

/-- The body of the loop in `__iter__` (nonogram.py:122-129). -/
def nonoDecode (nc : Nat) (rowVars : List (List NVar)) (σ : Subst) : Res (List (List Int)) :=
  Res.each (nonoRow σ (List.replicate nc 0)) rowVars

/-- `pixmap_shape` (nonogram.py:132-138). -/
def pixmapShape (p : List (List Int)) : Nat × Nat := (p.length, p.foldl (fun m row => max m row.length) 0)

/-- The loop over the cells of a row or column (nonogram.py:145-155, 159-170): `row` and `count` as in the code. -/
def clueLoop : List Int → List Int → Int → List Int
  | [], row, count => if count ≠ 0 then row ++ [count] else row
  | cell :: cells, row, count =>
    if cell ≠ 0 then clueLoop cells row (count + 1)
    else clueLoop cells (if count ≠ 0 then row ++ [count] else row) 0

/-- `pixmap_to_nonogram` (nonogram.py:141-172): rows and columns. A cell counts as filled if it is truthy. -/
def pixmapToNonogram (p : List (List Int)) : Res (List (List Int) × List (List Int)) := do
  let (nr, nc) := pixmapShape p
  let rows := p.map (fun row => clueLoop row [] 0)
  let cols ← Res.each (fun c : Nat => do
    let cells ← Res.each (fun r : Nat => do
      let row ← listAt p r
      listAt row c) (List.range nr)
    return clueLoop cells [] 0) (List.range nc)
  return (rows, cols)

end Satisfy
