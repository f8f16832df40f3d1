import Verif.Nonogram
/-!
# tool/demo_nonogram.py: images

Strings are lists of characters (Lean's `Char`: no surrogates). `zero` and `one` are single characters, `zeroes` a set of characters.
-/

namespace Satisfy

/-- `s.split(c)` for a single character `c`. -/
def pySplit (c : Char) : List Char → List (List Char)
  | [] => [[]]
  | x :: l =>
    if x = c then [] :: pySplit c l
    else match pySplit c l with
      | [] => [[x]]
      | piece :: rest => (x :: piece) :: rest

/-- `c.join(lines)`. -/
def pyJoin (c : Char) : List (List Char) → List Char
  | [] => []
  | [l] => l
  | l :: ls => l ++ c :: pyJoin c ls

/-- The inner loop of `image_to_pixmap` (demo_nonogram.py:50-52): `row` is `pixmap[r]`, from column `c` on. -/
def imageRow (zeroes : List Char) : List Char → Nat → List Int → Res (List Int)
  | [], _, row => .ok row
  | cell :: cells, c, row => do
    let row ← if cell ∉ zeroes then listSet row c 1 else .ok row
    imageRow zeroes cells (c + 1) row

/-- `max(len(line) for line in lines)`. -/
def maxLength {α : Type} (lines : List (List α)) : Nat := lines.foldl (fun m l => max m l.length) 0

/-- `image_to_pixmap` (demo_nonogram.py:44-53). The rows are filled independently. -/
def imageToPixmap (image : List Char) (zeroes : List Char := [' ', '_']) : Res (List (List Int)) :=
  let lines := pySplit '\n' image
  Res.each (fun line => imageRow zeroes line 0 (List.replicate (maxLength lines) 0)) lines

/-- The inner loop of `pixmap_to_image` (demo_nonogram.py:64-66): `line` is `image[r]`, from column `c` on. -/
def pixmapRow (one : Char) : List Int → Nat → List Char → Res (List Char)
  | [], _, line => .ok line
  | cell :: cells, c, line => do
    let line ← if truthy cell then listSet line c one else .ok line
    pixmapRow one cells (c + 1) line

/-- `pixmap_to_image` (demo_nonogram.py:60-67). -/
def pixmapToImage (p : List (List Int)) (zero : Char := ' ') (one : Char := '#') : Res (List Char) := do
  let (_, nc) := pixmapShape p
  let lines ← Res.each (fun row => pixmapRow one row 0 (List.replicate nc zero)) p
  return pyJoin '\n' lines

/-- `image_to_nonogram` (demo_nonogram.py:56-57). -/
def imageToNonogram (image : List Char) (zeroes : List Char := [' ', '_']) : Res (List (List Int) × List (List Int)) := do
  let p ← imageToPixmap image zeroes
  pixmapToNonogram p

end Satisfy
