import Verif.Lex
/-!
# The text of a compiled function, character by character (expression.py:54-72)

`Compile.lean` prints token lists. Here are the actual texts of `str()`, `py_expr()` and `py_source()`, and `eval` of the latter: Python's
tokenizer (`lexGo`), then the grammar of a `lambda`. `asFunctionText` is shown to be `asFunction` (Props/Source.lean). Constants that are
bools print as `True` and `False` in Python; here they are ints (`1`, `0`), with the same value when read back.
-/

namespace Satisfy

/-- The characters of an operator. -/
def OpTok.text : OpTok → List Char
  | .plus => ['+'] | .minus => ['-'] | .star => ['*'] | .slash => ['/'] | .dslash => ['/', '/'] | .percent => ['%'] | .dstar => ['*', '*']
  | .eq => ['=', '='] | .ne => ['!', '='] | .lt => ['<'] | .le => ['<', '='] | .gt => ['>'] | .ge => ['>', '=']
  | .amp => ['&'] | .bar => ['|'] | .caret => ['^'] | .and => ['a', 'n', 'd'] | .or => ['o', 'r'] | .not => ['n', 'o', 't']

/-- `str(n)` for an int. -/
def intText (n : Int) : List Char := if n < 0 then '-' :: natStr n.natAbs else natStr n.natAbs

/-- `Accumulation._as_str` (expression.py:676-688), given the printed elements. -/
def accText (k : AccKind) (c : Int) (vs : List (List Char)) : List Char :=
  match (if c ≠ k.neutral then [intText c] else []) ++ vs with
  | [] => intText k.neutral
  | [v] => v
  | [v, w] => v ++ ' ' :: k.sym.text ++ ' ' :: w
  | vs => k.fn.toList ++ '(' :: '[' :: joinChars [',', ' '] vs ++ [']', ')']

mutual
/-- `str(e)` (expression.py:221, 437, 448, 477, 614, 705, 727, 757). -/
def Expr.strText : Expr → List Char
  | .const v => intText v
  | .var x => x.toList
  | .param _ n => n.toList
  | .un .neg e => '-' :: '(' :: e.strText ++ [')']
  | .un .abs e => 'a' :: 'b' :: 's' :: '(' :: e.strText ++ [')']
  | .un .not e => '^' :: e.strText
  | .bin o l r => '(' :: l.strText ++ ' ' :: o.sym.text ++ ' ' :: r.strText ++ [')']
  | .acc k c es => accText k c (Expr.strTextList es)
def Expr.strTextList : List Expr → List (List Char)
  | [] => []
  | e :: es => e.strText :: Expr.strTextList es
end

mutual
/-- `e.py_expr()` (expression.py:224, 440, 451, 480, 603, 617, 708, 730, 765, 791). -/
def Expr.pyText (ρ : Store) : Expr → List Char
  | .const v => intText v
  | .var x => x.toList
  | .param i _ => intText (ρ i)
  | .un .neg e => (Expr.un .neg e).strText
  | .un .abs e => (Expr.un .abs e).strText
  | .un .not e => 'n' :: 'o' :: 't' :: ' ' :: e.pyText ρ
  | .bin .or l r => l.pyText ρ ++ ' ' :: 'o' :: 'r' :: ' ' :: r.pyText ρ
  | .bin o l r => '(' :: l.pyText ρ ++ ' ' :: o.pySym.text ++ ' ' :: r.pyText ρ ++ [')']
  | .acc k c es => accText k c (Expr.pyTextList ρ es)
def Expr.pyTextList (ρ : Store) : List Expr → List (List Char)
  | [] => []
  | e :: es => e.pyText ρ :: Expr.pyTextList ρ es
end

/-- `py_source()` (expression.py:54-57). -/
def Expr.pySource (ρ : Store) (e : Expr) : List Char :=
  "lambda ".toList ++ joinChars [',', ' '] (e.vars.map String.toList ++ ["**".toList ++ dummyName.toList]) ++ ": (".toList ++ e.pyText ρ ++
    [')']

/-- The words that are operators. -/
def keywordTok : Tok → Tok
  | .name x => if x = "and" then .op .and else if x = "or" then .op .or else if x = "not" then .op .not else .name x
  | t => t

/-- Python's tokens of a text. -/
def lexText (s : List Char) : Option (List Tok) := (lexGo s .start).map (List.map keywordTok)

/-- The parameters of a lambda up to the colon: names, then `**name`. No other forms occur in these texts. -/
def lambdaParams : List Tok → Option (List Name × List Tok)
  | .op .dstar :: .name x :: .colon :: r => if x ∈ pyKeywords then none else some ([x], r)
  | .name x :: .comma :: r => if x ∈ pyKeywords then none else (lambdaParams r).map (fun p => (x :: p.1, p.2))
  | _ => none

/-- A whole text: `lambda params: test`. Two parameters of the same name are a syntax error. The parameters without the last one, and the body. -/
def parseLambda : List Tok → Option (List Name × Ast)
  | .name l :: r =>
    if l = "lambda" then match lambdaParams r with
      | some (ps, body) => if ps.Nodup then (parseBody body).map (fun a => (ps.dropLast, a)) else none
      | none => none
    else none
  | _ => none

/-- `as_function()` (expression.py:54-72), from the text. -/
def asFunctionText (ρ : Store) (e : Expr) : Compiled :=
  match lexText (e.pySource ρ) with
  | some toks => match parseLambda toks with
    | some (ps, a) => .fn ps a
    | none => .fallback
  | none => .fallback

end Satisfy
