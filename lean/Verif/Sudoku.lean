import Verif.Build
/-!
# sudoku.py

A schema is a list of rows of `None` or ints.
-/

namespace Satisfy

abbrev Cell := Nat × Nat

/-- `row_index`, `col_index`, `block_index` of a cell (sudoku.py:39-44). -/
def Cell.block (k : Cell) : Nat := (k.1 / 3) * 3 + k.2 / 3

/-- `value in null_values` (sudoku.py:27). -/
def isNull : Option Int → Bool
  | none => true
  | some v => v == 0

/-- `value in accepted_values` (sudoku.py:26-28). -/
def isAccepted : Option Int → Bool
  | none => true
  | some v => decide (0 ≤ v) && decide (v ≤ 9)

/-- `schema[r][c]`. -/
def schemaAt (schema : List (List (Option Int))) (k : Cell) : Option (Option Int) := schema[k.1]?.bind (fun row => row[k.2]?)

/-- The cells in the order of the nested loops over `matrix` (sudoku.py:61-62). -/
def sudokuCells : List Cell := (List.range 9).flatMap (fun r => (List.range 9).map (fun c => (r, c)))

/-- The first loop over the schema (sudoku.py:30-48): entries must be accepted, rows not longer than 9. -/
def sudokuCheck (schema : List (List (Option Int))) : Res Unit := do
  if schema.length ≠ 9 then .error .valueError
  else do
    let _ ← Res.each (fun row : List (Option Int) => Res.each (fun p : Option Int × Nat =>
      if !isAccepted p.1 then .error .valueError
      else if p.2 ≥ 9 then (.error .indexError : Res Unit)
      else .ok ()) row.zipIdx) schema
    return ()

/-- One round of the second loop (sudoku.py:50-56) as far as the domain `d` of the cell `k` is concerned: the entry of the cell `k'` is
discarded from the domains of the cells of its row, column and block (also its own). -/
def sudokuDiscard (schema : List (List (Option Int))) (k : Cell) (d : List Int) (k' : Cell) : List Int :=
  if k'.1 = k.1 ∨ k'.2 = k.2 ∨ k'.block = k.block then
    match schemaAt schema k' with
    | some (some v) => d.filter (fun u => u ≠ v)
    | _ => d
  else d

/-- The domain of the cell `k` after the second loop (sudoku.py:44, 50-56). It is a set; `ord` is the order of its elements. -/
def sudokuDomain (ord : List Int → List Int) (schema : List (List (Option Int))) (k : Cell) : List Int :=
  ord (sudokuCells.foldl (sudokuDiscard schema k) (pyRange 1 10))

/-- One round of the third loop (sudoku.py:63-69). Where the row was too short, the matrix holds `None`, which has no attributes. -/
def sudokuCell (ord : List Int → List Int) (schema : List (List (Option Int))) (k : Cell) : Api (Option (Cell × Expr)) :=
  match schemaAt schema k with
  | none => Api.raise .attributeError
  | some v =>
    if isNull v then do
      let x ← addIntVariable (sudokuDomain ord schema k) (some ("c_" ++ toString k.1 ++ "_" ++ toString k.2))
      return some (k, x)
    else return none

/-- The loop over `row_variables`, `col_variables` or `block_variables` (sudoku.py:71-82); `vars` are the cells with a variable in the
order in which they were appended. -/
def sudokuUnits (vars : List (Cell × Expr)) (idx : Cell → Nat) : Api (List Unit) :=
  Api.each (fun i =>
    let l := vars.filter (fun p => idx p.1 = i)
    if l.length > 1 then addAllDifferent (l.map (fun p => p.2.name)) else return ()) (List.range 9)

/-- `SudokuSolver.__init__` (sudoku.py:18-85): the cells that have a variable. -/
def sudokuBuild (ord : List Int → List Int) (schema : List (List (Option Int))) : Api (List (Cell × Expr)) := do
  let _ ← Api.lift (sudokuCheck schema)
  let l ← Api.each (sudokuCell ord schema) sudokuCells
  let vars := l.filterMap id
  let _ ← sudokuUnits vars Prod.fst
  let _ ← sudokuUnits vars Prod.snd
  let _ ← sudokuUnits vars Cell.block
  return vars

/-- The body of the loop in `__iter__` (sudoku.py:93-101). -/
def sudokuDecode (schema : List (List (Option Int))) (vars : List (Cell × Expr)) (σ : Subst) : Res (List (List (Option Int))) :=
  Res.each (fun rp : List (Option Int) × Nat => Res.each (fun cp : Option Int × Nat =>
    match aget vars (rp.2, cp.2) with
    | some x => do return some (← σ.at x.name)
    | none => .ok cp.1) rp.1.zipIdx) schema.zipIdx

end Satisfy
