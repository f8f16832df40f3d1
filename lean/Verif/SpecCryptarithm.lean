import Verif.Py
/-!
# Cryptarithms: the claim

Texts, what they mean, and which digits solve them; no reference to the model.
-/

namespace Satisfy

/-- Arithmetic over words. -/
inductive CTree where
  | word (w : List Char)
  | neg (a : CTree)
  | add (a b : CTree)
  | sub (a b : CTree)
  | mul (a b : CTree)

/-- A decimal digit. -/
def IsDigit (c : Char) : Prop := '0' ≤ c ∧ c ≤ '9'

instance (c : Char) : Decidable (IsDigit c) := inferInstanceAs (Decidable (_ ∧ _))

/-- Letters and digits. -/
def IsAlnum (c : Char) : Prop := ('A' ≤ c ∧ c ≤ 'Z') ∨ ('a' ≤ c ∧ c ≤ 'z') ∨ IsDigit c

instance (c : Char) : Decidable (IsAlnum c) := inferInstanceAs (Decidable (_ ∨ _))

/-- The digit a character stands for when the letters stand for `d`. -/
def charVal (d : Char → Int) (c : Char) : Int := if IsDigit c then (c.toNat : Int) - 48 else d c

/-- Reading a word in base ten. -/
def wordVal (d : Char → Int) (w : List Char) : Int := w.foldl (fun n c => 10 * n + charVal d c) 0

/-- The number a text stands for. -/
def CTree.value (d : Char → Int) : CTree → Int
  | .word w => wordVal d w
  | .neg a => -(a.value d)
  | .add a b => a.value d + b.value d
  | .sub a b => a.value d - b.value d
  | .mul a b => a.value d * b.value d

/-- The words of a text. -/
def CTree.words : CTree → List (List Char)
  | .word w => [w]
  | .neg a => a.words
  | .add a b | .sub a b | .mul a b => a.words ++ b.words

/-- `s` is a text for the tree: level 6 are sums, 7 products, 8 words, bracketed expressions and their negations; letters in upper or lower
case (they mean the same), blanks anywhere between words and operators. -/
inductive CText : Nat → List Char → CTree → Prop
  | word {w} : w ≠ [] → (∀ c ∈ w, IsAlnum c) → CText 8 w (.word (w.map Char.toUpper))
  | paren {s a} : CText 6 s a → CText 8 ('(' :: s ++ [')']) a
  | neg {s a} : CText 8 s a → CText 8 ('-' :: s) (.neg a)
  | mul {s t a b} : CText 7 s a → CText 8 t b → CText 7 (s ++ '*' :: t) (.mul a b)
  | add {s t a b} : CText 6 s a → CText 7 t b → CText 6 (s ++ '+' :: t) (.add a b)
  | sub {s t a b} : CText 6 s a → CText 7 t b → CText 6 (s ++ '-' :: t) (.sub a b)
  | factor {s a} : CText 8 s a → CText 7 s a
  | term {s a} : CText 7 s a → CText 6 s a
  | blankL {l s a} : CText l s a → CText l (' ' :: s) a
  | blankR {l s a} : CText l s a → CText l (s ++ [' ']) a

/-- A cryptarithm: `expression == expression`. -/
def CSource (source : List Char) (l r : CTree) : Prop :=
  ∃ s t, source = s ++ "==".toList ++ t ∧ CText 6 s l ∧ CText 6 t r

/-- The letters of a cryptarithm. -/
def CLetter (l r : CTree) (c : Char) : Prop := ∃ w ∈ l.words ++ r.words, c ∈ w ∧ ¬ IsDigit c

/-- What is left of one side when constants are computed at once, as expressions do: a number, if there is no letter in it; a constant, if the letters disappear, as in `0 * A + 3`;
or a formula. -/
inductive Folded where
  | number (n : Int)
  | constant (n : Int)
  | formula
  deriving DecidableEq

/-- Its value, if it is known. -/
def Folded.value? : Folded → Option Int
  | .number n | .constant n => some n
  | .formula => none

/-- Two numbers give a number; other known values a constant. -/
def Folded.add : Folded → Folded → Folded
  | .number m, .number n => .number (m + n)
  | a, b => match a.value?, b.value? with
    | some m, some n => .constant (m + n)
    | _, _ => .formula

/-- `0 - …` is turned into a negation, and a number after a constant is not subtracted at once. -/
def Folded.sub : Folded → Folded → Folded
  | .number m, .number n => .number (m - n)
  | .number m, .constant n | .constant m, .constant n => if m = 0 then .formula else .constant (m - n)
  | _, _ => .formula

/-- A factor 0 makes the letters disappear. -/
def Folded.mul : Folded → Folded → Folded
  | .number m, .number n => .number (m * n)
  | a, b => match a.value?, b.value? with
    | some m, some n => .constant (m * n)
    | some m, none => if m = 0 then .constant 0 else .formula
    | none, some n => if n = 0 then .constant 0 else .formula
    | none, none => .formula

/-- The negation of a constant is not computed. -/
def Folded.neg : Folded → Folded
  | .number n => .number (-n)
  | _ => .formula

/-- What is left of a text. -/
def CTree.folded : CTree → Folded
  | .word w => if ∀ c ∈ w, IsDigit c then .number (wordVal (fun _ => 0) w) else .formula
  | .neg a => a.folded.neg
  | .add a b => a.folded.add b.folded
  | .sub a b => a.folded.sub b.folded
  | .mul a b => a.folded.mul b.folded

/-- Both sides are constants: there are letters on both sides, but nothing depends on them. -/
def BothConstant (l r : CTree) : Prop := (∃ m, l.folded = .constant m) ∧ ∃ n, r.folded = .constant n

/-- The pairs (letter, digit) solve the cryptarithm. -/
structure CSolution (avoid : Bool) (letters : List Char) (l r : CTree) (L : List (Char × Int)) : Prop where
  letters : L.map Prod.fst = letters
  digits : ∀ p ∈ L, 0 ≤ p.2 ∧ p.2 ≤ 9
  different : ∀ p ∈ L, ∀ q ∈ L, p.1 ≠ q.1 → p.2 ≠ q.2
  leading : avoid = true → ∀ w ∈ l.words ++ r.words, ∀ c, w.head? = some c → ¬ IsDigit c → (c, 0) ∉ L
  equation : ∀ d : Char → Int, (∀ p ∈ L, d p.1 = p.2) → l.value d = r.value d

/-- The digits solve the equation, none of the words begins with a zero. -/
structure SolvesWords (ws : List (List Char)) (letters : List Char) (l r : CTree) (L : List (Char × Int)) : Prop where
  letters : L.map Prod.fst = letters
  digits : ∀ p ∈ L, 0 ≤ p.2 ∧ p.2 ≤ 9
  different : ∀ p ∈ L, ∀ q ∈ L, p.1 ≠ q.1 → p.2 ≠ q.2
  leading : ∀ w ∈ ws, ∀ c, w.head? = some c → ¬ IsDigit c → (c, 0) ∉ L
  equation : ∀ d : Char → Int, (∀ p ∈ L, d p.1 = p.2) → l.value d = r.value d

/-- A chain of equations: `expression == … == expression`. -/
inductive CChain : List Char → List CTree → Prop
  | last {s t} : CText 6 s t → CChain s [t]
  | more {s t source ts} : CText 6 s t → CChain source ts → CChain (s ++ "==".toList ++ source) (t :: ts)

/-- Python finds `a == b` true when it is asked: it is not about two numbers, or two constants, which are different. -/
def Folded.passes : Folded → Folded → Prop
  | .number m, .number n | .constant m, .constant n => m = n
  | _, _ => True

/-- … all along. -/
def allPass : List CTree → Prop
  | a :: b :: ts => a.folded.passes b.folded ∧ allPass (b :: ts)
  | _ => True

end Satisfy
