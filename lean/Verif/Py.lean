/-!
# The fragment of Python semantics the library uses

Everything here models CPython itself rather than a file of `/repo`; the places where the
library relies on it are cited.  Python `int` and `bool` are both `Int` (bool is a subclass of int,
`True == 1`, and every operation of the library treats them alike).
-/

namespace Satisfy

/-- Variable and parameter names (Python `str`). -/
abbrev Name := String

/-- `\w` of the name regex (model.py:30), for ASCII characters. Non-ASCII names are outside the
model. -/
def isWord (c : Char) : Bool := c.isAlphanum || c == '_'

/-- A Python identifier (ASCII). -/
def isIdent (x : Name) : Bool := match x.toList with
  | [] => false
  | c :: cs => (c.isAlpha || c == '_') && cs.all isWord

/-- Exceptions that the modelled code can raise.  `nonInt` is not a Python exception: it marks a
computation whose Python result is a float (`2 ** -1`, `x / y` in compiled text), about which the
model makes no further statement. -/
inductive Err where
  | zeroDivision
  | undefinedVar (n : Name)      -- expression.EvaluationError
  | nameError (n : Name)
  | typeError
  | keyError
  | valueError
  | indexError
  | attributeError
  | runtimeError
  | nonInt
  | syntaxError
  deriving DecidableEq, Repr

/-- Result of a Python call: a value or an exception. -/
abbrev Res (α : Type) := Except Err α

instance {α} [DecidableEq α] : DecidableEq (Res α) := fun a b =>
  match a, b with
  | .ok x, .ok y => if h : x = y then isTrue (by rw [h]) else isFalse (by intro e; injection e; contradiction)
  | .error x, .error y => if h : x = y then isTrue (by rw [h]) else isFalse (by intro e; injection e; contradiction)
  | .ok _, .error _ => isFalse (by intro e; injection e)
  | .error _, .ok _ => isFalse (by intro e; injection e)

@[simp] theorem ok_bind {α β} (a : α) (f : α → Res β) : (Except.ok a >>= f : Res β) = f a := rfl
@[simp] theorem error_bind {α β} (e : Err) (f : α → Res β) : (Except.error e >>= f : Res β) = Except.error e := rfl
@[simp] theorem pure_res {α} (a : α) : (pure a : Res α) = Except.ok a := rfl

theorem bind_eq_ok {α β} {x : Res α} {f : α → Res β} {b : β} :
    (x >>= f) = .ok b ↔ ∃ a, x = .ok a ∧ f a = .ok b := by
  cases x <;> simp

/-! ## Numbers -/

/-- Python truth value of an int: `bool(n)`. -/
def truthy (n : Int) : Bool := n != 0

/-- `int(b)`. -/
def ofBool (b : Bool) : Int := if b then 1 else 0

@[simp] theorem truthy_ofBool (b : Bool) : truthy (ofBool b) = b := by cases b <;> rfl

/-- `a // b` (floor division). -/
def pyFloorDiv (a b : Int) : Res Int := if b = 0 then .error .zeroDivision else .ok (a.fdiv b)

/-- `a % b` (result has the sign of `b`). -/
def pyMod (a b : Int) : Res Int := if b = 0 then .error .zeroDivision else .ok (a.fmod b)

/-- `a ** b`; a negative exponent gives a float (or `ZeroDivisionError` for base 0). -/
def pyPow (a b : Int) : Res Int :=
  if b < 0 then (if a = 0 then .error .zeroDivision else .error .nonInt) else .ok (a ^ b.toNat)

/-- `a / b`: a float, hence outside the model, or `ZeroDivisionError`. -/
def pyTrueDiv (_a b : Int) : Res Int := if b = 0 then .error .zeroDivision else .error .nonInt

/-- `a and b` on values. -/
def pyAnd (a b : Int) : Int := if truthy a then b else a

/-- `a or b` on values. -/
def pyOr (a b : Int) : Int := if truthy a then a else b

/-- `a & b` on ints (two's complement). -/
def pyBitAnd : Int → Int → Int
  | .ofNat m, .ofNat n => .ofNat (m &&& n)
  | .ofNat m, .negSucc n => .ofNat (m ^^^ (m &&& n))
  | .negSucc m, .ofNat n => .ofNat (n ^^^ (n &&& m))
  | .negSucc m, .negSucc n => .negSucc (m ||| n)

/-- `a | b` on ints (two's complement). -/
def pyBitOr : Int → Int → Int
  | .ofNat m, .ofNat n => .ofNat (m ||| n)
  | .ofNat m, .negSucc n => .negSucc (n ^^^ (n &&& m))
  | .negSucc m, .ofNat n => .negSucc (m ^^^ (m &&& n))
  | .negSucc m, .negSucc n => .negSucc (m &&& n)

/-- `abs(a)`. -/
def pyAbs (a : Int) : Int := a.natAbs

/-! ## Dictionaries (insertion ordered) -/

/-- A Python dict with string keys: insertion-ordered association list. -/
abbrev Dict (α : Type) := List (Name × α)

namespace Dict
variable {α : Type}

/-- `d.get(k)`. -/
def get? : Dict α → Name → Option α
  | [], _ => none
  | (k', v) :: d, k => if k' = k then some v else get? d k

/-- `d[k] = v`: overwrite in place, or append. -/
def set : Dict α → Name → α → Dict α
  | [], k, v => [(k, v)]
  | (k', v') :: d, k, v => if k' = k then (k', v) :: d else (k', v') :: set d k v

/-- `d.pop(k)` (the removed value is not used by the library). -/
def erase : Dict α → Name → Dict α
  | [], _ => []
  | (k', v') :: d, k => if k' = k then d else (k', v') :: erase d k

/-- `list(d)`. -/
def keys (d : Dict α) : List Name := d.map (·.1)

/-- `k in d`. -/
def has (d : Dict α) (k : Name) : Bool := (d.get? k).isSome

end Dict

/-- A substitution: the dict `var_name -> value` handed to `evaluate` and yielded by `solve`. -/
abbrev Subst := Dict Int

/-! ## Stable sorting -/

/-- Insert before the first element that is strictly greater (`lt x y`: x must come before y). -/
def insertSorted {α} (lt : α → α → Bool) (x : α) : List α → List α
  | [] => [x]
  | y :: ys => if lt y x then y :: insertSorted lt x ys else x :: y :: ys

/-- `sorted(l, key=…)` for the strict order `lt` on keys: stable. (`sorted(..., reverse=True)` is
`pySorted` for the reversed strict order, which is also stable in Python.) -/
def pySorted {α} (lt : α → α → Bool) : List α → List α
  | [] => []
  | x :: xs => insertSorted lt x (pySorted lt xs)

/-- `itertools`-free helper: keep first occurrences (`if var not in vlist: vlist.append(var)`,
expression.py:321-326; also `frozenset(var_names)` up to order, constraint.py:17). -/
def dedupInto {α} [DecidableEq α] : List α → List α → List α
  | acc, [] => acc
  | acc, x :: xs => if x ∈ acc then dedupInto acc xs else dedupInto (acc ++ [x]) xs

def dedup {α} [DecidableEq α] (l : List α) : List α := dedupInto [] l

end Satisfy
