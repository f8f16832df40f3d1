import Verif.Build
/-!
# tool/queens.py

`board_size` is a natural number here: `range` of a negative number is empty, like `range(0)`.
-/

namespace Satisfy

/-- One round of the inner loop (queens.py:24-30): the two auxiliary variables. -/
def queensCell (n : Nat) (queens : List Expr) (r c : Nat) : Api (Expr × Expr) := do
  let ul ← addIntVariable (pyRange 0 (2 * n + 1)) (some ("diag_ul_br_" ++ toString r ++ "_" ++ toString c))
  let q ← Api.lift (listAt queens c)
  addConstraint (cmpArg .eq (.expr ul) ((Obj.expr q).add (.int c)))
  let ur ← addIntVariable (pyRange (-n) (n + 1)) (some ("diag_ur_bl_" ++ toString r ++ "_" ++ toString c))
  let q ← Api.lift (listAt queens c)
  addConstraint (cmpArg .eq (.expr ur) ((Obj.expr q).sub (.int c)))
  return (ul, ur)

/-- One round of the outer loop (queens.py:21-32). -/
def queensRow (n : Nat) (queens : List Expr) (r : Nat) : Api Unit := do
  let ps ← Api.each (queensCell n queens r) (List.range n)
  addAllDifferent (ps.map (fun p => p.1.name))
  addAllDifferent (ps.map (fun p => p.2.name))

/-- `QueensSolver.__init__` (queens.py:12-35): the result is `self._queens`. -/
def queensBuild (n : Nat) : Api (List Expr) := do
  let queens ← Api.each (fun r => addIntVariable (pyRange 0 n) (some ("q_" ++ toString r))) (List.range n)
  addAllDifferent (queens.map Expr.name)
  let _ ← Api.each (queensRow n queens) (List.range n)
  return queens

/-- The loop filling the board (queens.py:44-45), from row `r` on. -/
def queensFill (σ : Subst) : Nat → List Expr → List (List Int) → Res (List (List Int))
  | _, [], board => .ok board
  | r, q :: qs, board => do
    let v ← σ.at q.name
    let row ← listAt board r
    let row ← listSet row v 1
    let board ← listSet board r row
    queensFill σ (r + 1) qs board

/-- The body of the loop in `__iter__` (queens.py:43-46). -/
def queensDecode (n : Nat) (queens : List Expr) (σ : Subst) : Res (List (List Int)) :=
  queensFill σ 0 queens (List.replicate n (List.replicate n 0))

end Satisfy
