import Verif.SpecCryptarithm
/-!
# Cryptarithms with other comparisons: the claim

Chains of `==`, `!=`, `<`, `<=`, `>`, `>=` between sums of words; no reference to the model.
-/

namespace Satisfy

/-- The six comparisons. -/
inductive CRel where | eq | ne | lt | le | gt | ge
  deriving DecidableEq

/-- How they are written. -/
def CRel.text : CRel → List Char
  | .eq => ['=', '='] | .ne => ['!', '='] | .lt => ['<'] | .le => ['<', '='] | .gt => ['>'] | .ge => ['>', '=']

/-- What they mean. -/
def CRel.Holds : CRel → Int → Int → Prop
  | .eq, m, n => m = n | .ne, m, n => m ≠ n | .lt, m, n => m < n | .le, m, n => m ≤ n | .gt, m, n => n < m | .ge, m, n => n ≤ m

/-- A text `expression comparison expression …`: the first expression, then the comparisons with what follows them. -/
inductive CLinks : List Char → CTree → List (CRel × CTree) → Prop
  | last {s t} : CText 6 s t → CLinks s t []
  | more {s t r source u rest} : CText 6 s t → CLinks source u rest → CLinks (s ++ CRel.text r ++ source) t ((r, u) :: rest)

/-- All expressions of a chain. -/
def linkWords (t : CTree) (rest : List (CRel × CTree)) : List (List Char) := t.words ++ rest.flatMap (fun p => p.2.words)

/-- All comparisons hold. -/
def AllHold (d : Char → Int) : CTree → List (CRel × CTree) → Prop
  | _, [] => True
  | t, (r, u) :: rest => r.Holds (t.value d) (u.value d) ∧ AllHold d u rest

/-- Digits for the letters, all different, no word beginning with a zero, with the property `P`. -/
structure SolvesFor (ws : List (List Char)) (letters : List Char) (P : (Char → Int) → Prop) (L : List (Char × Int)) : Prop where
  letters : L.map Prod.fst = letters
  digits : ∀ p ∈ L, 0 ≤ p.2 ∧ p.2 ≤ 9
  different : ∀ p ∈ L, ∀ q ∈ L, p.1 ≠ q.1 → p.2 ≠ q.2
  leading : ∀ w ∈ ws, ∀ c, w.head? = some c → ¬ IsDigit c → (c, 0) ∉ L
  holds : ∀ d : Char → Int, (∀ p ∈ L, d p.1 = p.2) → P d

/-- Python, asked whether a comparison is true, says yes: it is true, or it is not about two numbers, nor two constants. -/
def CRel.Passes (r : CRel) : Folded → Folded → Prop
  | .number m, .number n | .constant m, .constant n => r.Holds m n
  | _, _ => True

/-- The comparison a chain is reduced to, as `a < b < c` is `a < b and b < c`: the first one that is found false, or the last one. -/
inductive Decisive : CTree → List (CRel × CTree) → CTree → CRel → CTree → Prop
  | last {t r u} : Decisive t [(r, u)] t r u
  | stop {t r u rest} : ¬ r.Passes t.folded u.folded → Decisive t ((r, u) :: rest) t r u
  | next {t r u rest l q v} : r.Passes t.folded u.folded → Decisive u rest l q v → Decisive t ((r, u) :: rest) l q v

end Satisfy
