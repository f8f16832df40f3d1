import Verif.Py
/-!
# Model of `src/satisfy/expression.py` : expression trees, evaluation and operators
-/

namespace Satisfy

/-- `Neg`, `Abs`, `Not` (expression.py:433, 444, 607). -/
inductive UOp where | neg | abs | not
  deriving DecidableEq, Repr

/-- The `BinOp` subclasses (expression.py:484-604). -/
inductive BOp where
  | add | mul | sub | div | mod | pow | eq | ne | lt | le | gt | ge | and | or
  deriving DecidableEq, Repr

/-- `Sum` and `Prod` (expression.py:691, 712). -/
inductive AccKind where | sum | prod
  deriving DecidableEq, Repr

/-- Instances of `Expression` subclasses.  A `Parameter` object (expression.py:769) has an identity
(`id`), because its value is mutable and shared; its current value is looked up in a store.
`acc k c es` is a `Sum`/`Prod` object with `_const = c`, `_expressions = es`. -/
inductive Expr where
  | const (v : Int)                          -- Const, expression.py:201
  | var (x : Name)                           -- Variable, expression.py:734
  | param (id : Nat) (name : Name)           -- Parameter, expression.py:769
  | un (op : UOp) (e : Expr)                 -- UnOp, expression.py:418
  | bin (op : BOp) (l r : Expr)              -- BinOp, expression.py:455
  | acc (k : AccKind) (c : Int) (es : List Expr)   -- Accumulation, expression.py:621
  deriving Repr

/-- Parameter store: the current `_value` of each `Parameter` object. -/
abbrev Store := Nat → Int

/-- An operand handed to a Python operator: an int or an expression object. Comparing two `Const`
objects gives back an int (expression.py:272-310), so results are `Obj` too. -/
inductive Obj where
  | int (n : Int)
  | expr (e : Expr)
  deriving Repr

/-- `Expression.coerce` (expression.py:47-52). -/
def coerce : Obj → Expr
  | .int n => .const n
  | .expr e => e

/-! ## evaluate -/

/-- The `_op` methods of the `BinOp` subclasses (expression.py:488-601). -/
def BOp.op : BOp → Int → Int → Res Int
  | .add, a, b => .ok (a + b)
  | .mul, a, b => .ok (a * b)
  | .sub, a, b => .ok (a - b)
  | .div, a, b => pyFloorDiv a b
  | .mod, a, b => pyMod a b
  | .pow, a, b => pyPow a b
  | .eq, a, b => .ok (ofBool (decide (a = b)))
  | .ne, a, b => .ok (ofBool (decide (a ≠ b)))
  | .lt, a, b => .ok (ofBool (decide (a < b)))
  | .le, a, b => .ok (ofBool (decide (a ≤ b)))
  | .gt, a, b => .ok (ofBool (decide (a > b)))
  | .ge, a, b => .ok (ofBool (decide (a ≥ b)))
  | .and, a, b => .ok (pyAnd a b)
  | .or, a, b => .ok (pyOr a b)

/-- `Neg.evaluate`, `Abs.evaluate`, `Not.evaluate` (expression.py:434, 445, 611). -/
def UOp.op : UOp → Int → Int
  | .neg, a => -a
  | .abs, a => pyAbs a
  | .not, a => ofBool (!truthy a)

/-- `Sum.op(start, [v])` / `Prod.op(start, [v])` for one value (expression.py:18-21, 701-703, 723-725). -/
def AccKind.op : AccKind → Int → Int → Int
  | .sum, a, b => a + b
  | .prod, a, b => a * b

/-- `__neutral_element__` (expression.py:692, 713). -/
def AccKind.neutral : AccKind → Int
  | .sum => 0
  | .prod => 1

/-- `__absorbing_element__` (expression.py:623, 714); `None` for `Sum`. -/
def AccKind.absorbing : AccKind → Option Int
  | .sum => none
  | .prod => some 0

/-- The `binop_class` that goes with an accumulation (expression.py:410-415). -/
def AccKind.binop : AccKind → BOp
  | .sum => .add
  | .prod => .mul

mutual
/-- `Expression.evaluate(substitution)` (expression.py:215, 434, 445, 474, 611, 667, 751, 788).
`BinOp.evaluate` evaluates both operands, left first, also for `And`/`Or`. -/
def Expr.eval (ρ : Store) (σ : Subst) : Expr → Res Int
  | .const v => .ok v
  | .var x => match σ.get? x with
    | some v => .ok v
    | none => .error (.undefinedVar x)
  | .param i _ => .ok (ρ i)
  | .un op e => do
    let v ← e.eval ρ σ
    return op.op v
  | .bin op l r => do
    let a ← l.eval ρ σ
    let b ← r.eval ρ σ
    op.op a b
  | .acc k c es => Expr.evalAcc ρ σ k c es
/-- `self.op(self._const, (e.evaluate(substitution) for e in self._expressions))`
(expression.py:667-668): fold from the left, evaluating on the way. -/
def Expr.evalAcc (ρ : Store) (σ : Subst) (k : AccKind) : Int → List Expr → Res Int
  | c, [] => .ok c
  | c, e :: es => do
    let v ← e.eval ρ σ
    Expr.evalAcc ρ σ k (k.op c v) es
end

/-- Value of a Python operand: ints are themselves. -/
def Obj.eval (ρ : Store) (σ : Subst) : Obj → Res Int
  | .int n => .ok n
  | .expr e => e.eval ρ σ

/-! ## vars, free_vars -/

mutual
/-- `list(e.vars())` (expression.py:33, 321-326, 341, 747, 785). -/
def Expr.vars : Expr → List Name
  | .const _ => []
  | .var x => [x]
  | .param _ _ => []
  | .un _ e => dedupInto [] e.vars
  | .bin _ l r => dedupInto (dedupInto [] l.vars) r.vars
  | .acc _ _ es => Expr.varsInto [] es
/-- The loop building `_vars` in `Collection.__init__` (expression.py:321-326). -/
def Expr.varsInto : List Name → List Expr → List Name
  | vlist, [] => vlist
  | vlist, e :: es => Expr.varsInto (dedupInto vlist e.vars) es
end

/-- `list(e.free_vars(substitution))` (expression.py:205, 344, 422, 747, 782).  `Parameter.free_vars`
takes no substitution argument, so calling it this way is a `TypeError`; `UnOp.free_vars` delegates
to the operand, the other collections use the precomputed `_vars`. -/
def Expr.freeVars (σ : Subst) : Expr → Res (List Name)
  | .const _ => .ok []
  | .var x => .ok (if σ.has x then [] else [x])
  | .param _ _ => .error .typeError
  | .un _ e => e.freeVars σ
  | .bin op l r => .ok ((Expr.bin op l r).vars.filter (fun x => !σ.has x))
  | .acc k c es => .ok ((Expr.acc k c es).vars.filter (fun x => !σ.has x))

/-! ## Accumulation constructor and `_make_accumulate` -/

/-- The loop of `Accumulation.__init__` (expression.py:631-654) with running `const` and `elist`. -/
def accInit (k : AccKind) : List Expr → Int → List Expr → Int × List Expr
  | [], c, elist => (c, elist)
  | .const v :: es, c, elist =>
      if v = k.neutral then accInit k es c elist
      else if some v = k.absorbing then (v, [])
      else accInit k es (k.op c v) elist
  | .acc _ c' [] :: es, c, elist => accInit k es (k.op c c') elist
  | .acc k' c' es' :: es, c, elist =>
      if k' = k then
        if some c' = k.absorbing then (c', [])
        else accInit k es (if c' ≠ k.neutral then k.op c c' else c) (elist ++ es')
      else accInit k es c (elist ++ [.acc k' c' es'])
  | e :: es, c, elist => accInit k es c (elist ++ [e])

/-- `Sum(expressions, const=c)` / `Prod(expressions, const=c)` (expression.py:625-656). -/
def mkAcc (k : AccKind) (es : List Expr) (c : Int) : Expr :=
  .acc k (accInit k es c []).1 (accInit k es c []).2

/-- First loop of `_make_accumulate` (expression.py:362-367) for one operand. -/
def expandOperand (k : AccKind) : Obj → List Expr
  | .expr (.bin op l r) => if op = k.binop then [l, r] else [.bin op l r]
  | o => [coerce o]

/-- Second loop of `_make_accumulate` (expression.py:368-392). -/
def accLoop (k : AccKind) : List Expr → Int → List Expr → Int × List Expr
  | [], c, elist => (c, elist)
  | .const v :: es, c, elist =>
      if v = k.neutral then accLoop k es c elist
      else if some v = k.absorbing then (v, [])
      else if some (k.op c v) = k.absorbing then (k.op c v, [])
      else accLoop k es (k.op c v) elist
  | .acc k' c' es' :: es, c, elist =>
      if k' = k then
        if es'.isEmpty then accLoop k es (k.op c c') elist
        else if c' ≠ k.neutral then
          if some (k.op c c') = k.absorbing then (k.op c c', [])
          else accLoop k es (k.op c c') (elist ++ es')
        else accLoop k es c (elist ++ es')
      else accLoop k es c (elist ++ [.acc k' c' es'])
  | e :: es, c, elist => accLoop k es c (elist ++ [e])

/-- `_make_accumulate([l, r], …)` (expression.py:360-407). `const is neutral_element` is equality:
both are cached small ints in CPython. -/
def makeAcc (k : AccKind) (l r : Obj) : Expr :=
  let (c, elist) := accLoop k (expandOperand k l ++ expandOperand k r) k.neutral []
  match elist with
  | [] => .const c
  | [e] => if c = k.neutral then e else .bin k.binop (.const c) e
  | [e1, e2] => if c = k.neutral then .bin k.binop e1 e2 else mkAcc k [e1, e2] c
  | es => if c = k.neutral then mkAcc k es k.neutral else mkAcc k es c

/-- `_make_sum`, `_make_prod` (expression.py:410-415). -/
abbrev makeSum := makeAcc .sum
abbrev makeProd := makeAcc .prod

/-! ## Operators: methods -/

/-- `self.__add__(other)`: `Expression.__add__` (89-92) or `Const.__add__` (227-233). -/
def Expr.pyAdd : Expr → Obj → Expr
  | .const v, o =>
      if v = 0 then coerce o
      else match o with
        | .expr (.const w) => .const (v + w)
        | o => makeSum (.expr (.const v)) o
  | s, .expr (.const w) => if w = 0 then s else makeSum (.expr s) (.expr (.const w))
  | s, o => makeSum (.expr s) o

/-- `self.__sub__(other)`: 94-97, 235-241. -/
def Expr.pySub : Expr → Obj → Expr
  | .const v, o =>
      if v = 0 then .un .neg (coerce o)
      else match o with
        | .expr (.const w) => .const (v - w)
        | o => .bin .sub (.const v) (coerce o)
  | s, .expr (.const w) => if w = 0 then s else .bin .sub s (.const w)
  | s, o => .bin .sub s (coerce o)

/-- `self.__mul__(other)`: 99-105, 243-250. -/
def Expr.pyMul : Expr → Obj → Expr
  | .const v, o =>
      if v = 0 then .const v
      else if v = 1 then coerce o
      else match o with
        | .expr (.const w) => .const (v * w)
        | o => makeProd (.expr (.const v)) o
  | s, .expr (.const w) =>
      if w = 0 then .const w else if w = 1 then s else makeProd (.expr s) (.expr (.const w))
  | s, o => makeProd (.expr s) o

/-- `self.__truediv__(other)` = `self.__div__(other)`: 107-111, 124-125, 252-258.  Folding two
constants can raise at construction time. -/
def Expr.pyDiv : Expr → Obj → Res Expr
  | .const v, o =>
      if v = 0 then .ok (.const v)
      else match o with
        | .expr (.const w) => do return .const (← pyFloorDiv v w)
        | o => .ok (.bin .div (.const v) (coerce o))
  | s, .expr (.const w) => if w = 1 then .ok s else .ok (.bin .div s (.const w))
  | s, o => .ok (.bin .div s (coerce o))

/-- `self.__mod__(other)`: 113-114, 267-270. -/
def Expr.pyMod : Expr → Obj → Res Expr
  | .const v, .expr (.const w) => do return .const (← Satisfy.pyMod v w)
  | s, o => .ok (.bin .mod s (coerce o))

/-- `self.__pow__(other)`: 116-122, 260-265. -/
def Expr.pyPow : Expr → Obj → Res Expr
  | .const v, o =>
      if v = 1 then .ok (.const v)
      else match o with
        | .expr (.const w) => do return .const (← Satisfy.pyPow v w)
        | o => .ok (.bin .pow (.const v) (coerce o))
  | s, .expr (.const w) =>
      if w = 0 then .ok (.const 1) else if w = 1 then .ok s else .ok (.bin .pow s (.const w))
  | s, o => .ok (.bin .pow s (coerce o))

/-- The six comparison operators. -/
inductive Cmp where | eq | ne | lt | le | gt | ge
  deriving DecidableEq, Repr

def Cmp.bop : Cmp → BOp
  | .eq => .eq | .ne => .ne | .lt => .lt | .le => .le | .gt => .gt | .ge => .ge

/-- Python's table of reflected comparisons. -/
def Cmp.swap : Cmp → Cmp
  | .eq => .eq | .ne => .ne | .lt => .gt | .le => .ge | .gt => .lt | .ge => .le

/-- Comparison of two ints. -/
def Cmp.holds : Cmp → Int → Int → Bool
  | .eq, a, b => decide (a = b)
  | .ne, a, b => decide (a ≠ b)
  | .lt, a, b => decide (a < b)
  | .le, a, b => decide (a ≤ b)
  | .gt, a, b => decide (a > b)
  | .ge, a, b => decide (a ≥ b)

/-- `self.__eq__(other)` … `self.__ge__(other)`: 127-143, 272-300. Comparing `Const` with `Const`
folds to a plain int. -/
def Expr.pyCmp (c : Cmp) : Expr → Obj → Obj
  | .const v, .expr (.const w) => .int (ofBool (c.holds v w))
  | s, o => .expr (.bin c.bop s (coerce o))

/-- `self.__and__(other)`: 145-146, 302-305. -/
def Expr.pyAnd : Expr → Obj → Obj
  | .const v, .expr (.const w) => .int (Satisfy.pyAnd v w)
  | s, o => .expr (.bin .and s (coerce o))

/-- `self.__or__(other)`: 148-149, 307-310. -/
def Expr.pyOr : Expr → Obj → Obj
  | .const v, .expr (.const w) => .int (Satisfy.pyOr v w)
  | s, o => .expr (.bin .or s (coerce o))

/-! ## Operators: Python dispatch

`int ⊕ expr` first tries `int.__op__`, gets `NotImplemented`, then calls the reflected method of the
expression (expression.py:155-198).  `int ⊕ int` is plain Python. -/

namespace Obj

/-- `a + b` (155-156). -/
def add : Obj → Obj → Obj
  | .int a, .int b => .int (a + b)
  | .int a, .expr e => .expr ((Expr.const a).pyAdd (.expr e))
  | .expr e, o => .expr (e.pyAdd o)

/-- `a - b` (158-159). -/
def sub : Obj → Obj → Obj
  | .int a, .int b => .int (a - b)
  | .int a, .expr e => .expr ((Expr.const a).pySub (.expr e))
  | .expr e, o => .expr (e.pySub o)

/-- `a * b` (161-162). -/
def mul : Obj → Obj → Obj
  | .int a, .int b => .int (a * b)
  | .int a, .expr e => .expr ((Expr.const a).pyMul (.expr e))
  | .expr e, o => .expr (e.pyMul o)

/-- `a // b` where an operand is an expression: no class defines `__floordiv__` or
`__rfloordiv__`, so Python raises `TypeError`. -/
def floorDiv : Obj → Obj → Res Obj
  | .int a, .int b => do return .int (← pyFloorDiv a b)
  | _, _ => .error .typeError

/-- `a / b`: `__truediv__` (124-125) or `__rtruediv__`, which computes `coerce(a) // b` (167-168). -/
def div : Obj → Obj → Res Obj
  | .int a, .int b => do return .int (← pyTrueDiv a b)
  | .int a, .expr e => floorDiv (.expr (coerce (.int a))) (.expr e)
  | .expr e, o => do return .expr (← e.pyDiv o)

/-- `a % b` (170-171). -/
def mod : Obj → Obj → Res Obj
  | .int a, .int b => do return .int (← pyMod a b)
  | .int a, .expr e => do return .expr (← (Expr.const a).pyMod (.expr e))
  | .expr e, o => do return .expr (← e.pyMod o)

/-- `a ** b` (173-174). -/
def pow : Obj → Obj → Res Obj
  | .int a, .int b => do return .int (← pyPow a b)
  | .int a, .expr e => do return .expr (← (Expr.const a).pyPow (.expr e))
  | .expr e, o => do return .expr (← e.pyPow o)

/-- `a == b` … `a >= b`.  With an int on the left Python calls the swapped method of the right
operand.  Likewise when the type of the right operand is a proper subclass of the type of the left
one: the only such pair of concrete classes is `Variable`/`Parameter`. (`__req__` etc.,
expression.py:176-192, are not Python protocol methods and are never called.) -/
def cmp (c : Cmp) : Obj → Obj → Obj
  | .int a, .int b => .int (ofBool (c.holds a b))
  | .int a, .expr e => e.pyCmp c.swap (.int a)
  | .expr (.var x), .expr (.param i n) => (Expr.param i n).pyCmp c.swap (.expr (.var x))
  | .expr e, o => e.pyCmp c o

/-- `a & b`; between ints this is Python's bitwise and; `__rand__`: 194-195. -/
def and : Obj → Obj → Obj
  | .int a, .int b => .int (pyBitAnd a b)
  | .int a, .expr e => .expr (.bin .and (coerce (.int a)) e)
  | .expr e, o => e.pyAnd o

/-- `a | b`; between ints this is Python's bitwise or; `__ror__`: 197-198. -/
def or : Obj → Obj → Obj
  | .int a, .int b => .int (pyBitOr a b)
  | .int a, .expr e => .expr (.bin .or (coerce (.int a)) e)
  | .expr e, o => e.pyOr o

/-- `-a`, `abs(a)`, `+a` (79-86). -/
def neg : Obj → Obj
  | .int a => .int (-a)
  | .expr e => .expr (.un .neg e)

def abs : Obj → Obj
  | .int a => .int (pyAbs a)
  | .expr e => .expr (.un .abs e)

def pos : Obj → Obj := id

/-- Built-in `sum(objs)` = `0 + o1 + o2 + …`. -/
def pySum (os : List Obj) : Obj := os.foldl add (.int 0)

end Obj

/-! ## `equals` -/

/-- Python class of an expression object, as compared by `type(self) == type(other)`. -/
inductive ClassTag where
  | const | var | param | un (op : UOp) | bin (op : BOp) | acc (k : AccKind)
  deriving DecidableEq

def Expr.tag : Expr → ClassTag
  | .const _ => .const | .var _ => .var | .param _ _ => .param
  | .un op _ => .un op | .bin op _ _ => .bin op | .acc k _ _ => .acc k

/-- `self._expressions` of a `Collection`. -/
def Expr.children : Expr → List Expr
  | .un _ e => [e] | .bin _ l r => [l, r] | .acc _ _ es => es | _ => []

/-- `bool(obj)` for the result of `l_e == r_e` inside `Collection.equals`: an int is tested for
zero; an `Eq` object is a `Collection`, so `bool` uses `__len__` (338-339), which is 2. -/
def Obj.truth : Obj → Bool
  | .int n => truthy n
  | .expr (.const _) | .expr (.var _) | .expr (.param _ _) => true
  | .expr e => e.children.length != 0

/-- `self.equals(other)` (208-209, 332-333, 740-741). -/
def Expr.equals (a b : Expr) : Bool :=
  match a, b with
  | .const v, .const w => v == w
  | .const _, _ => false
  | .var x, .var y => x == y
  | .var _, _ => false
  | .param _ x, .param _ y => x == y
  | .param _ _, _ => false
  | a, b => a.tag = b.tag && a.children.length == b.children.length &&
      (a.children.zip b.children).all (fun p => (Obj.cmp .eq (.expr p.1) (.expr p.2)).truth)

end Satisfy
