import Verif.Build
import Mathlib.Logic.Relation
/-! Specification of map colouring. -/

namespace Satisfy

/-- Row and column. -/
abbrev Pos := Int × Int

/-- What is at a position, if it is within the map. -/
def cell {α : Type} (map : List (List α)) (p : Pos) : Option α :=
  if 0 ≤ p.1 ∧ 0 ≤ p.2 then (map[p.1.toNat]?).bind (fun row => row[p.2.toNat]?) else none

/-- Different, and next to each other (diagonally as well). -/
def Adjacent (p q : Pos) : Prop := p ≠ q ∧ (p.1 - q.1).natAbs ≤ 1 ∧ (p.2 - q.2).natAbs ≤ 1

/-- The characters that do not belong to any region. -/
def Blank (x : Char) : Prop := x = ' ' ∨ x = '.'

/-- `M` colours the map: cells of the map that are not blank have a label and one of the colours, the same for neighbours with the same
letter, different colours for neighbours with different letters; blank cells stay blank. -/
structure Coloring {β : Type} (map : List (List Char)) (colors : List β) (M : List (List (Option (Char × β)))) : Prop where
  shape : M.map List.length = map.map List.length
  blanks : ∀ p x, cell map p = some x → Blank x → cell M p = some none
  colored : ∀ p x, cell map p = some x → ¬ Blank x → ∃ l c, cell M p = some (some (l, c)) ∧ c ∈ colors
  same : ∀ p q x, Adjacent p q → cell map p = some x → cell map q = some x → ¬ Blank x → cell M p = cell M q
  different : ∀ p q x y, Adjacent p q → cell map p = some x → cell map q = some y → ¬ Blank x → ¬ Blank y → x ≠ y →
    ∀ l c l' c', cell M p = some (some (l, c)) → cell M q = some (some (l', c')) → c ≠ c'

/-- Two cells of the same region: connected through neighbours with the same letter. -/
def Region (map : List (List Char)) (p q : Pos) : Prop :=
  ∃ x, ¬ Blank x ∧ cell map p = some x ∧ Relation.ReflTransGen (fun u v => Adjacent u v ∧ cell map v = some x) p q

/-- `num` numbers the regions consecutively from 0. -/
structure Numbering (map : List (List Char)) (num : Pos → Nat) : Prop where
  region : ∀ p q x y, cell map p = some x → cell map q = some y → ¬ Blank x → ¬ Blank y → (num p = num q ↔ Region map p q)
  all : ∀ p x, cell map p = some x → ¬ Blank x → ∀ k < num p, ∃ q y, cell map q = some y ∧ ¬ Blank y ∧ num q = k

end Satisfy
