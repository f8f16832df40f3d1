import Verif.Py
/-! Specification of nonograms. -/

namespace Satisfy

/-- The lengths of the maximal runs of filled cells, in order: cut at the empty cells, and forget the empty pieces. -/
def runs (l : List Int) : List Int := ((l.splitOnP (fun v => v == 0)).map (fun b => (b.length : Int))).filter (fun n => n ≠ 0)

/-- Column `c`. -/
def pixCol (P : List (List Int)) (c : Nat) : List Int := P.map (fun row => row.getD c 0)

/-- `P` is a pixmap of zeros and ones with the given clues. -/
structure Picture (rows cols : List (List Int)) (P : List (List Int)) : Prop where
  height : P.length = rows.length
  width : ∀ row ∈ P, row.length = cols.length
  cells : ∀ row ∈ P, ∀ v ∈ row, v = 0 ∨ v = 1
  rowRuns : P.map runs = rows
  colRuns : (List.range cols.length).map (fun c => runs (pixCol P c)) = cols

/-- The cell is covered by a block. -/
def Cover : List Int → List Int → Int → Prop
  | s :: L, p :: P, c => (p ≤ c ∧ c < p + s) ∨ Cover L P c
  | _, _, _ => False

/-- Blocks of the given lengths (possibly 0) at the given positions, in order with gaps, in `[lo, N)`. -/
def Loose : Int → Int → List Int → List Int → Prop
  | _, _, [], [] => True
  | lo, N, s :: L, p :: P => 0 ≤ s ∧ lo ≤ p ∧ p + s ≤ N ∧ Loose (p + s + 1) N L P
  | _, _, _, _ => False

/-- Blocks of the lengths `L` can be placed in the line such that they cover exactly the filled cells. -/
def Places (L l : List Int) : Prop := ∃ P, Loose 0 l.length L P ∧ ∀ c : Nat, c < l.length → (Cover L P c ↔ l.getD c 0 ≠ 0)

/-- `B` is a pixmap of zeros and ones such that the blocks of every clue can be placed. -/
structure Placed (rows cols : List (List Int)) (B : List (List Int)) : Prop where
  height : B.length = rows.length
  width : ∀ row ∈ B, row.length = cols.length
  cells : ∀ row ∈ B, ∀ v ∈ row, v = 0 ∨ v = 1
  rows : ∀ r < rows.length, Places (rows.getD r []) (B.getD r [])
  cols : ∀ c < cols.length, Places (cols.getD c []) (pixCol B c)

/-- The clue without the zeros. -/
def noZeros (L : List Int) : List Int := L.filter (fun s => s ≠ 0)

end Satisfy
