import Verif.Expr
/-!
# Model of the compile path of `src/satisfy/expression.py`

`as_function` (67-72) evaluates the text `lambda v1, …, **__dummy_kwargs: (py_expr)` (54-61).  The
text is modelled as the list of its Python tokens (Source.lean has the characters; C54 shows that the
result is the same); the Python expression grammar reached by these texts is a recursive descent parser, and
the body is run with Python's evaluation rules (short circuit, name lookup).
-/

namespace Satisfy

/-- Operator tokens that can occur in the printed text. -/
inductive OpTok where
  | plus | minus | star | slash | dslash | percent | dstar
  | eq | ne | lt | le | gt | ge | amp | bar | caret | and | or | not
  deriving DecidableEq, Repr

/-- Tokens. Numbers in texts are non-negative: `-3` is the two tokens `-`, `3`. -/
inductive Tok where
  | num (n : Nat) | name (x : Name) | op (o : OpTok) | lpar | rpar | lbrk | rbrk | comma | colon
  deriving DecidableEq, Repr

/-- `str(n)` for an int. -/
def intToks (n : Int) : List Tok :=
  if n < 0 then [.op .minus, .num n.natAbs] else [.num n.natAbs]

/-- `__py_symbol__` (expression.py:484-598). -/
def BOp.pySym : BOp → OpTok
  | .add => .plus | .mul => .star | .sub => .minus | .div => .dslash | .mod => .percent
  | .pow => .dstar | .eq => .eq | .ne => .ne | .lt => .lt | .le => .le | .gt => .gt | .ge => .ge
  | .and => .and | .or => .or

/-- `__symbol__` (expression.py:484-598): differs for `Div`, `And`, `Or`. -/
def BOp.sym : BOp → OpTok
  | .div => .slash | .and => .amp | .or => .bar | o => o.pySym

/-- The `op` and `fun` arguments of `_as_str` (expression.py:705-731). -/
def AccKind.sym : AccKind → OpTok
  | .sum => .plus | .prod => .star

def AccKind.fn : AccKind → Name
  | .sum => "sum" | .prod => "prod"

/-- `", ".join(values)`. -/
def joinToks : List (List Tok) → List Tok
  | [] => []
  | [v] => v
  | v :: vs => v ++ .comma :: joinToks vs

/-- `Accumulation._as_str` (expression.py:676-688), given the printed elements. -/
def accToks (k : AccKind) (c : Int) (vs : List (List Tok)) : List Tok :=
  match (if c ≠ k.neutral then [intToks c] else []) ++ vs with
  | [] => intToks k.neutral
  | [v] => v
  | [v, w] => v ++ .op k.sym :: w
  | vs => [.name k.fn, .lpar, .lbrk] ++ joinToks vs ++ [.rbrk, .rpar]

mutual
/-- `str(e)` (expression.py:221, 437, 448, 477, 614, 705, 727, 757); a parameter prints its name. -/
def Expr.strToks : Expr → List Tok
  | .const v => intToks v
  | .var x => [.name x]
  | .param _ n => [.name n]
  | .un .neg e => .op .minus :: .lpar :: e.strToks ++ [.rpar]
  | .un .abs e => .name "abs" :: .lpar :: e.strToks ++ [.rpar]
  | .un .not e => .op .caret :: e.strToks
  | .bin o l r => .lpar :: l.strToks ++ .op o.sym :: r.strToks ++ [.rpar]
  | .acc k c es => accToks k c (Expr.strToksList es)
def Expr.strToksList : List Expr → List (List Tok)
  | [] => []
  | e :: es => e.strToks :: Expr.strToksList es
end

mutual
/-- `e.py_expr()` (expression.py:224, 440, 451, 480, 603, 617, 708, 730, 765, 791); a parameter
prints its current value, `Neg` and `Abs` print `str(self)`. -/
def Expr.pyToks (ρ : Store) : Expr → List Tok
  | .const v => intToks v
  | .var x => [.name x]
  | .param i _ => intToks (ρ i)
  | .un .neg e => (Expr.un .neg e).strToks
  | .un .abs e => (Expr.un .abs e).strToks
  | .un .not e => .op .not :: e.pyToks ρ
  | .bin .or l r => l.pyToks ρ ++ .op .or :: r.pyToks ρ
  | .bin o l r => .lpar :: l.pyToks ρ ++ .op o.pySym :: r.pyToks ρ ++ [.rpar]
  | .acc k c es => accToks k c (Expr.pyToksList ρ es)
def Expr.pyToksList (ρ : Store) : List Expr → List (List Tok)
  | [] => []
  | e :: es => e.pyToks ρ :: Expr.pyToksList ρ es
end

/-! ## Python expression grammar -/

/-- Python AST of the texts above. -/
inductive Ast where
  | num (n : Nat) | name (x : Name)
  | neg (a : Ast) | not (a : Ast)
  | bin (o : OpTok) (a b : Ast)          -- arithmetic and bitwise operators
  | cmp (o : OpTok) (a b : Ast)
  | and (a b : Ast) | or (a b : Ast)
  | call (f : Name) (a : Ast)             -- f(a)
  | callList (f : Name) (as : List Ast)   -- f([a, …])
  deriving Repr

/-- Python keywords: not usable as names. -/
def pyKeywords : List Name :=
  ["False", "None", "True", "and", "as", "assert", "async", "await", "break", "class", "continue",
   "def", "del", "elif", "else", "except", "finally", "for", "from", "global", "if", "import", "in",
   "is", "lambda", "nonlocal", "not", "or", "pass", "raise", "return", "try", "while", "with", "yield"]

/-- Binary operator levels of the grammar: 0 `or`, 1 `and`, (2 `not`), 3 comparisons, 4 `|`, 5 `&`,
6 `+ -`, 7 `* / // %`, (8 unary `-`), (9 `**`), (10 atoms). -/
def OpTok.level : OpTok → Option Nat
  | .or => some 0 | .and => some 1
  | .eq | .ne | .lt | .le | .gt | .ge => some 3
  | .bar => some 4 | .amp => some 5
  | .plus | .minus => some 6
  | .star | .slash | .dslash | .percent => some 7
  | .dstar => some 9
  | .caret | .not => none

/-- AST node for a binary operator. -/
def mkBin : OpTok → Ast → Ast → Ast
  | .or, a, b => .or a b
  | .and, a, b => .and a b
  | o, a, b => if o.level = some 3 then .cmp o a b else .bin o a b

mutual
/-- Parse a phrase of the given level. -/
def pE : Nat → Nat → List Tok → Option (Ast × List Tok)
  | 0, _, _ => none
  | f + 1, lvl, toks =>
    match lvl with
    | 2 => match toks with               -- not_test: 'not' not_test | comparison
      | .op .not :: r => match pE f 2 r with
        | some (a, r') => some (.not a, r')
        | none => none
      | _ => pE f 3 toks
    | 3 => match pE f 4 toks with         -- comparison: expr (comp_op expr)*
      | some (a, r) => pChain f none a r
      | none => none
    | 8 => match toks with               -- factor: '-' factor | power
      | .op .minus :: r => match pE f 8 r with
        | some (a, r') => some (.neg a, r')
        | none => none
      | _ => pE f 9 toks
    | 9 => match pE f 10 toks with        -- power: atom ['**' factor]
      | some (a, .op .dstar :: r) => match pE f 8 r with
        | some (b, r') => some (.bin .dstar a b, r')
        | none => none
      | res => res
    | 10 => match toks with
      | .num n :: r => some (.num n, r)
      | .lpar :: r => match pE f 0 r with
        | some (a, .rpar :: r') => some (a, r')
        | _ => none
      | .name x :: .lpar :: .lbrk :: r => match pList f r with
        | some (as, .rbrk :: .rpar :: r') => some (.callList x as, r')
        | _ => none
      | .name x :: .lpar :: r => match pE f 0 r with
        | some (a, .rpar :: r') => some (.call x a, r')
        | _ => none
      | .name x :: r =>
        if x = "True" then some (.num 1, r)
        else if x = "False" then some (.num 0, r)
        else if x ∈ pyKeywords then none
        else some (.name x, r)
      | _ => none
    | lvl => match pE f (lvl + 1) toks with   -- left associative binary operators
      | some (a, r) => pLoop f lvl a r
      | none => none
/-- `(op operand)*` of a left associative level. -/
def pLoop : Nat → Nat → Ast → List Tok → Option (Ast × List Tok)
  | 0, _, _, _ => none
  | f + 1, lvl, a, .op o :: r =>
    if o.level = some lvl then
      match pE f (lvl + 1) r with
      | some (b, r') => pLoop f lvl (mkBin o a b) r'
      | none => none
    else some (a, .op o :: r)
  | _ + 1, _, a, r => some (a, r)
/-- Comparison chains: `a < b < c` is `a < b and b < c`; `acc` is the chain so far, `a` its last
operand. -/
def pChain : Nat → Option Ast → Ast → List Tok → Option (Ast × List Tok)
  | 0, _, _, _ => none
  | f + 1, acc, a, .op o :: r =>
    if o.level = some 3 then
      match pE f 4 r with
      | some (b, r') =>
        pChain f (some (match acc with | none => .cmp o a b | some c => .and c (.cmp o a b))) b r'
      | none => none
    else some (acc.getD a, .op o :: r)
  | _ + 1, acc, a, r => some (acc.getD a, r)
/-- One or more expressions separated by commas. -/
def pList : Nat → List Tok → Option (List Ast × List Tok)
  | 0, _ => none
  | f + 1, toks => match pE f 0 toks with
    | some (a, .comma :: r) => match pList f r with
      | some (as, r') => some (a :: as, r')
      | none => none
    | some (a, r) => some ([a], r)
    | none => none
end

/-- Parse the whole body (the fuel is more than enough: see `parse_safe`). -/
def parseBody (toks : List Tok) : Option Ast :=
  match pE (14 * toks.length + 14) 0 toks with
  | some (a, []) => some a
  | _ => none

/-! ## Evaluation of the body -/

/-- Arithmetic and bitwise operators of compiled code. -/
def OpTok.arith : OpTok → Int → Int → Res Int
  | .plus, a, b => .ok (a + b)
  | .minus, a, b => .ok (a - b)
  | .star, a, b => .ok (a * b)
  | .slash, a, b => pyTrueDiv a b
  | .dslash, a, b => pyFloorDiv a b
  | .percent, a, b => pyMod a b
  | .dstar, a, b => pyPow a b
  | .amp, a, b => .ok (pyBitAnd a b)
  | .bar, a, b => .ok (pyBitOr a b)
  | _, _, _ => .error .typeError

/-- Comparison operators of compiled code. -/
def OpTok.compare : OpTok → Int → Int → Bool
  | .eq, a, b => decide (a = b)
  | .ne, a, b => decide (a ≠ b)
  | .lt, a, b => decide (a < b)
  | .le, a, b => decide (a ≤ b)
  | .gt, a, b => decide (a > b)
  | .ge, a, b => decide (a ≥ b)
  | _, _, _ => false

/-- Calling `f(v)` where `f` is not a lambda parameter: only `abs` of a number makes sense. -/
def callNum (f : Name) (v : Int) : Res Int :=
  if f = "abs" then .ok (pyAbs v) else if f = "sum" ∨ f = "prod" then .error .typeError
  else .error (.nameError f)

/-- Calling `f([v, …])`: `sum` and `prod` (expression.py:18-21) come from the globals passed to
`eval` (61). -/
def callSeq (f : Name) (vs : List Int) : Res Int :=
  if f = "sum" then .ok (vs.foldl (· + ·) 0) else if f = "prod" then .ok (vs.foldl (· * ·) 1)
  else if f = "abs" then .error .typeError else .error (.nameError f)

mutual
/-- Evaluate the body; `env` are the lambda parameters. A called name that is a lambda parameter is
an int, hence not callable. -/
def Ast.eval (env : Name → Option Int) : Ast → Res Int
  | .num n => .ok n
  | .name x => match env x with
    | some v => .ok v
    | none => .error (.nameError x)
  | .neg a => do return -(← a.eval env)
  | .not a => do return ofBool (!truthy (← a.eval env))
  | .bin o a b => do
    let x ← a.eval env
    let y ← b.eval env
    o.arith x y
  | .cmp o a b => do
    let x ← a.eval env
    let y ← b.eval env
    return ofBool (o.compare x y)
  | .and a b => do
    let x ← a.eval env
    if truthy x then b.eval env else return x
  | .or a b => do
    let x ← a.eval env
    if truthy x then return x else b.eval env
  | .call f a => do
    let v ← a.eval env
    if (env f).isSome then .error .typeError else callNum f v
  | .callList f as => do
    let vs ← Ast.evalList env as
    if (env f).isSome then .error .typeError else callSeq f vs
def Ast.evalList (env : Name → Option Int) : List Ast → Res (List Int)
  | [] => .ok []
  | a :: as => do
    let v ← a.eval env
    let vs ← Ast.evalList env as
    return v :: vs
end

/-- A value of `_evaluate_function`: a compiled lambda, or the bound method `self.evaluate` when
compilation failed (expression.py:67-72). -/
inductive Compiled where
  | fn (params : List Name) (body : Ast)
  | fallback
  deriving Repr

/-- The last parameter of the lambda, which takes all other keyword arguments (expression.py:56). -/
def dummyName : Name := "__dummy_kwargs"

/-- `as_function()` (expression.py:54-72).  `lambda` parameters must be identifiers, not keywords, and different from each other,
otherwise the text is a syntax error. -/
def asFunction (ρ : Store) (e : Expr) : Compiled :=
  if e.vars.any (fun x => !isIdent x || x ∈ pyKeywords || x = dummyName) then .fallback
  else match parseBody (e.pyToks ρ) with
    | some a => .fn e.vars a
    | none => .fallback

/-- `f(**substitution)` (constraint.py:80). A missing lambda parameter is a `TypeError`;
`self.evaluate(**substitution)` is one too (`evaluate` wants one positional dict). -/
def Compiled.call : Compiled → Subst → Res Int
  | .fn params body, σ =>
    if params.all (fun x => σ.has x) then
      body.eval (fun x => if x ∈ params then σ.get? x else none)
    else .error .typeError
  | .fallback, _ => .error .typeError

end Satisfy
