import Verif.SpecCryptarithm
/-!
# Cryptarithm texts that are no expressions: the claim

Mistakes that can be seen in the text; no reference to the model.
-/

namespace Satisfy

/-- Words, blanks, brackets and operators. -/
def TextChar (c : Char) : Prop := IsAlnum c ∨ c ∈ " ()+-*/%&|<>=!".toList

/-- The characters of operators. -/
def OpChar (c : Char) : Prop := c ∈ "+-*/%&|<>=!".toList

/-- Those that cannot stand before an operand only. -/
def BinChar (c : Char) : Prop := c ∈ "*/%&|<>=!".toList

/-- Two characters that make one operator. -/
def PairChars (p q : Char) : Prop := [p, q] ∈ ["**", "//", "==", "!=", "<=", ">=", "<<", ">>"].map String.toList

/-- Nothing but blanks. -/
def Blanks (b : List Char) : Prop := ∀ c ∈ b, c = ' '

/-- A text with a mistake: nothing in it; a single `=`; brackets that do not match; an operator at the start, at the end, after another one, after
an opening or before a closing bracket. -/
inductive Broken : List Char → Prop
  | blank {b} : Blanks b → Broken b
  | equals {s t} : (∀ c, s.getLast? = some c → c ∉ "=!<>".toList) → t.head? ≠ some '=' → Broken (s ++ '=' :: t)
  | closing {s t} : s.count '(' ≤ s.count ')' → Broken (s ++ ')' :: t)
  | unclosed {s} : s.count ')' < s.count '(' → Broken s
  | first {b q t} : Blanks b → BinChar q → Broken (b ++ q :: t)
  | last {s q b} : OpChar q → Blanks b → Broken (s ++ q :: b)
  | twice {s p b q t} : OpChar p → Blanks b → BinChar q → (b = [] → ¬ PairChars p q) → Broken (s ++ p :: (b ++ q :: t))
  | after {s b q t} : Blanks b → BinChar q → q ≠ '*' → Broken (s ++ '(' :: (b ++ q :: t))
  | before {s p b t} : OpChar p → Blanks b → Broken (s ++ p :: (b ++ ')' :: t))

end Satisfy
