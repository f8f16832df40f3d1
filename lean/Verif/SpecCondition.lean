import Verif.SpecRelation
/-!
# Cryptarithms with several conditions: the claim

Comparisons in brackets, combined with `&` and `|`; no reference to the model.
-/

namespace Satisfy

/-- Comparisons, combined. -/
inductive CForm where
  | cmp (l : CTree) (q : CRel) (r : CTree)
  | and (f g : CForm)
  | or (f g : CForm)

/-- What it means. -/
def CForm.Holds (d : Char → Int) : CForm → Prop
  | .cmp l q r => q.Holds (l.value d) (r.value d)
  | .and f g => f.Holds d ∧ g.Holds d
  | .or f g => f.Holds d ∨ g.Holds d

/-- The words of a condition. -/
def CForm.words : CForm → List (List Char)
  | .cmp l _ r => l.words ++ r.words
  | .and f g | .or f g => f.words ++ g.words

/-- `s` is a text for the condition: every comparison in brackets; level 4 are disjunctions, 5 conjunctions, 6 what is in brackets; blanks
anywhere between. -/
inductive CCond : Nat → List Char → CForm → Prop
  | cmp {s t l q r} : CText 6 s l → CText 6 t r → CCond 6 ('(' :: (s ++ CRel.text q ++ t) ++ [')']) (.cmp l q r)
  | paren {s f} : CCond 4 s f → CCond 6 ('(' :: s ++ [')']) f
  | and {s t f g} : CCond 5 s f → CCond 6 t g → CCond 5 (s ++ '&' :: t) (.and f g)
  | or {s t f g} : CCond 4 s f → CCond 5 t g → CCond 4 (s ++ '|' :: t) (.or f g)
  | bracket {s f} : CCond 6 s f → CCond 5 s f
  | conj {s f} : CCond 5 s f → CCond 4 s f
  | blankL {l s f} : CCond l s f → CCond l (' ' :: s) f
  | blankR {l s f} : CCond l s f → CCond l (s ++ [' ']) f

/-- What Python makes of it at once: a bool, an int, or an expression. -/
inductive CKindOf where | truth | number | formula
  deriving DecidableEq

/-- A comparison of two numbers is a bool, one of two constants an int. -/
def relKind : Folded → Folded → CKindOf
  | .number _, .number _ => .truth
  | .constant _, .constant _ => .number
  | _, _ => .formula

/-- Two bools give a bool; a bool and an int, or two ints, an int. -/
def CKindOf.join : CKindOf → CKindOf → CKindOf
  | .truth, .truth => .truth
  | .formula, _ | _, .formula => .formula
  | _, _ => .number

/-- What Python makes of a condition. -/
def CForm.kind : CForm → CKindOf
  | .cmp l _ r => relKind l.folded r.folded
  | .and f g | .or f g => f.kind.join g.kind

/-- A disjunction that is an expression. -/
def CForm.IsOr : CForm → Prop
  | .or f g => f.kind.join g.kind = .formula
  | _ => False

/-- No disjunction is part of a conjunction. -/
def CForm.Clean : CForm → Prop
  | .cmp _ _ _ => True
  | .and f g => f.Clean ∧ g.Clean ∧ ¬ f.IsOr ∧ ¬ g.IsOr
  | .or f g => f.Clean ∧ g.Clean

end Satisfy
