import Verif.Expr
/-!
# The expressions whose compiled form is faithful

`strLvl e` / `pyLvl ρ e`: the grammar level of the text printed by `str(e)` / `e.py_expr()` when the
text reads back as `e`, `none` when it need not.  Levels as in `OpTok.level`: 0 `or`, 1 `and`,
2 `not`, 3 comparisons, 6 `+ -`, 7 `* // %`, 8 unary `-`, 9 `**`, 10 atoms and bracketed texts.
This is a specification: it does not mention tokens or the parser.
-/

namespace Satisfy

def intLvl (n : Int) : Nat := if n < 0 then 8 else 10

/-- Least level of the left and right operand that need no brackets of their own. -/
def BOp.need : BOp → Nat × Nat
  | .add | .sub => (7, 7)
  | .mul | .div | .mod => (8, 8)
  | .pow => (10, 8)
  | .eq | .ne | .lt | .le | .gt | .ge => (4, 4)
  | .and => (2, 2)
  | .or => (0, 0)

/-- The level of `+` and of `*`. -/
def AccKind.lvl : AccKind → Nat
  | .sum => 6
  | .prod => 7

/-- `Sum`/`Prod` print themselves without brackets when they show exactly two values (`a + b`), otherwise as a call or as the only value. -/
def accLvl (k : AccKind) (c : Int) (ls : List Nat) : Option Nat :=
  match (if c ≠ k.neutral then [intLvl c] else []) ++ ls with
  | [] => some 10
  | [l] => some l
  | [a, b] => if k.lvl + 1 ≤ a ∧ k.lvl + 1 ≤ b then some k.lvl else none
  | _ => some 10

mutual
def strLvl : Expr → Option Nat
  | .const v => some (intLvl v)
  | .var _ => some 10
  | .param _ _ => none
  | .un .neg e => match strLvl e with | some _ => some 8 | none => none
  | .un .abs e => match strLvl e with | some _ => some 10 | none => none
  | .un .not _ => none
  | .bin o l r =>
    if o = .div ∨ o = .and ∨ o = .or then none
    else match strLvl l, strLvl r with
      | some a, some b => if o.need.1 ≤ a ∧ o.need.2 ≤ b then some 10 else none
      | _, _ => none
  | .acc k c es => match strLvls es with
    | some ls => accLvl k c ls
    | none => none
def strLvls : List Expr → Option (List Nat)
  | [] => some []
  | e :: es => match strLvl e, strLvls es with
    | some l, some ls => some (l :: ls)
    | _, _ => none
end

mutual
def pyLvl (ρ : Store) : Expr → Option Nat
  | .const v => some (intLvl v)
  | .var _ => some 10
  | .param i _ => some (intLvl (ρ i))
  | .un .neg e => strLvl (.un .neg e)
  | .un .abs e => strLvl (.un .abs e)
  | .un .not e => match pyLvl ρ e with
    | some l => if 2 ≤ l then some 2 else none
    | none => none
  | .bin o l r =>
    match pyLvl ρ l, pyLvl ρ r with
    | some a, some b =>
      if o = .or then some 0
      else if o.need.1 ≤ a ∧ o.need.2 ≤ b then some 10 else none
    | _, _ => none
  | .acc k c es => match pyLvls ρ es with
    | some ls => accLvl k c ls
    | none => none
def pyLvls (ρ : Store) : List Expr → Option (List Nat)
  | [] => some []
  | e :: es => match pyLvl ρ e, pyLvls ρ es with
    | some l, some ls => some (l :: ls)
    | _, _ => none
end

mutual
/-- Neither `&` nor `|` occurs: Python evaluates all parts of the expression, whatever their values are. -/
def Expr.eager : Expr → Bool
  | .const _ | .var _ | .param _ _ => true
  | .un _ e => e.eager
  | .bin o l r => o ≠ .and && o ≠ .or && l.eager && r.eager
  | .acc _ _ es => eagers es
def eagers : List Expr → Bool
  | [] => true
  | e :: es => e.eager && eagers es
end

/-- Names that are safe as lambda parameters: identifiers, no keyword, and not one of the functions the printed
text calls. -/
def NameOk (x : Name) : Prop :=
  isIdent x = true ∧ x ∉ ["False", "None", "True", "and", "as", "assert", "async", "await", "break", "class", "continue",
   "def", "del", "elif", "else", "except", "finally", "for", "from", "global", "if", "import", "in",
   "is", "lambda", "nonlocal", "not", "or", "pass", "raise", "return", "try", "while", "with", "yield",
   "sum", "prod", "abs", "__dummy_kwargs"]

instance (x : Name) : Decidable (NameOk x) := inferInstanceAs (Decidable (_ ∧ _))

/-- The expression prints back to itself and uses harmless names. -/
def Expr.Safe (ρ : Store) (e : Expr) : Prop := (pyLvl ρ e).isSome ∧ ∀ x ∈ e.vars, NameOk x

instance (ρ : Store) (e : Expr) : Decidable (e.Safe ρ) := inferInstanceAs (Decidable (_ ∧ _))

end Satisfy
