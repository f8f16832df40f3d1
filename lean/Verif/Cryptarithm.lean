import Verif.Graph
import Verif.Lex
/-!
# cryptarithm.py

Texts are lists of characters. The code builds a text and hands it to `eval`; so the model splits that text into Python tokens (`lexGo` of `Lex.lean`),
parses them with the grammar of `Compile.lean` and runs the operators on expression objects (`Ast.run`). Not modelled, and answered with
`SyntaxError`: texts with characters other than letters, digits, `_`, blanks, brackets, commas and the operators of `OpTok` (strings,
attributes, `@`, `~`, `^`, `:`, `<<`, `>>`, unary `+`, other whitespace), and calls of a bracketed expression (a `TypeError` in Python). The iteration
order of the set `letters` is an arbitrary function `ord`. `source.upper()` only changes the ASCII letters here.
-/

namespace Satisfy

/-! ## Words -/

/-- `[A-Z]`. -/
def isCap (c : Char) : Bool := 'A' ≤ c && c ≤ 'Z'

/-- `[A-Z0-9]` (cryptarithm.py:21). -/
def isWordChar (c : Char) : Bool := isCap c || isDig c

/-- The spans of `word.finditer(source)` (cryptarithm.py:31, 35): maximal runs of word characters. `pos` is the current position, `start`
where the current run began. -/
def wordSpans : Nat → Option Nat → List Char → List (Nat × Nat)
  | pos, some b, [] => [(b, pos)]
  | _, none, [] => []
  | pos, start, c :: cs =>
    if isWordChar c then wordSpans (pos + 1) (some (start.getD pos)) cs
    else match start with
      | some b => (b, pos) :: wordSpans (pos + 1) none cs
      | none => wordSpans (pos + 1) none cs

/-- `itertools.groupby(number, lambda x: x.isdigit())`, the groups joined (cryptarithm.py:36-38). -/
def groupDigits : List Char → List (Bool × List Char)
  | [] => []
  | c :: cs => match groupDigits cs with
    | (b, p) :: ps => if isDig c = b then (b, c :: p) :: ps else (isDig c, [c]) :: (b, p) :: ps
    | [] => [(isDig c, [c])]

/-- `int(part)` for a string of digits. -/
def digitsInt (part : List Char) : Nat := part.foldl (fun n c => 10 * n + (c.toNat - '0'.toNat)) 0

/-- `ldict[letter].append(x)` for a `defaultdict(list)`. -/
def ldictAppend : List (Char × List Nat) → Char → Nat → List (Char × List Nat)
  | [], l, x => [(l, [x])]
  | (k, xs) :: d, l, x => if k = l then (k, xs ++ [x]) :: d else (k, xs) :: ldictAppend d l x

/-- The loop over the letters of a part (cryptarithm.py:46-48), from position `c` on. -/
def ldictPart (p10 : Nat) : Nat → List Char → List (Char × List Nat) → List (Char × List Nat)
  | _, [], d => d
  | c, l :: ls, d => ldictPart p10 (c + 1) ls (ldictAppend d l (p10 * 10 ^ c))

/-- `p10`, `num_part`, `ldict`. -/
structure WordSt where
  p10 : Nat
  num : Nat
  ldict : List (Char × List Nat)

/-- One part of a word (cryptarithm.py:43-50). -/
def wordPart (st : WordSt) (part : Bool × List Char) : WordSt :=
  if part.1 then ⟨st.p10 * 10 ^ part.2.length, st.num + digitsInt part.2 * st.p10, st.ldict⟩
  else ⟨st.p10 * 10 ^ part.2.length, st.num, ldictPart st.p10 0 part.2.reverse st.ldict⟩

/-- The loop over the parts (cryptarithm.py:39-50). -/
def wordParts (number : List Char) : WordSt := (groupDigits number).reverse.foldl wordPart ⟨1, 0, []⟩

/-- `'letter'` or `'(letter * factor)'` (cryptarithm.py:52-57). -/
def termText (t : Char × List Nat) : List Char :=
  if t.2.sum = 1 then [t.1] else "(".toList ++ [t.1] ++ " * ".toList ++ natStr t.2.sum ++ ")".toList

/-- The text for a word (cryptarithm.py:36-58). -/
def wordText (number : List Char) : List Char :=
  let st := wordParts number
  "(".toList ++ joinChars " + ".toList (natStr st.num :: st.ldict.map termText) ++ ")".toList

/-- `s.add(x)`. -/
def charAdd (s : List Char) (x : Char) : List Char := if x ∈ s then s else s ++ [x]

/-- `letters.update(part)` for the parts that are not numeric, from the last one (cryptarithm.py:43-49). -/
def wordLetters (number : List Char) (letters : List Char) : List Char :=
  (groupDigits number).reverse.foldl (fun s part => if part.1 then s else part.2.foldl charAdd s) letters

/-! ## Python slices -/

/-- Where a slice bound falls. -/
def sliceBound (len : Nat) (i : Int) : Nat := if 0 ≤ i then min i.toNat len else (len + i).toNat

/-- `s[:i]`. -/
def sliceTo (s : List Char) (i : Int) : List Char := s.take (sliceBound s.length i)

/-- `s[i:]`. -/
def sliceFrom (s : List Char) (i : Int) : List Char := s.drop (sliceBound s.length i)

/-! ## The loop over the words -/

/-- `mod_source`, `offset`, `letters`, `non_zero_letters`. -/
structure CryptSt where
  mod : List Char
  offset : Int
  letters : List Char
  nonZero : List Char

/-- One word (cryptarithm.py:31-61). The set `numbers` is not used any more. -/
def cryptWord (source : List Char) (st : CryptSt) (span : Nat × Nat) : Res CryptSt :=
  let number := (source.take span.2).drop span.1
  match number with
  | [] => .error .indexError
  | c :: _ =>
    let nonZero := if isDig c then st.nonZero else charAdd st.nonZero c
    let expr := wordText number
    .ok ⟨sliceTo st.mod (st.offset + span.1) ++ expr ++ sliceFrom st.mod (st.offset + span.2),
      st.offset + ((expr.length : Int) - ((span.2 : Int) - (span.1 : Int))), wordLetters number st.letters, nonZero⟩

/-- All words (cryptarithm.py:31-61). -/
def cryptWords (source : List Char) : List (Nat × Nat) → CryptSt → Res CryptSt
  | [], st => .ok st
  | span :: spans, st => do
    let st ← cryptWord source st span
    cryptWords source spans st

/-- The sets before the loop (cryptarithm.py:19-30): `numbers` is still empty, so `avoid_leading_zeros` changes nothing. -/
def cryptInit (source : List Char) (avoid : Bool) : CryptSt :=
  let numbers : List (List Char) := []
  if avoid then numbers.foldl (fun st number => { st with
    nonZero := match number with | [] => st.nonZero | c :: _ => charAdd st.nonZero c
    letters := number.foldl charAdd st.letters }) ⟨source, 0, [], []⟩
  else ⟨source, 0, [], []⟩

/-! ## `eval` -/

/-- A binary operator on objects (Python's operators as modelled in `Expr.lean`). -/
def OpTok.applyObj : OpTok → Obj → Obj → Res Obj
  | .plus, a, b => .ok (a.add b)
  | .minus, a, b => .ok (a.sub b)
  | .star, a, b => .ok (a.mul b)
  | .slash, a, b => a.div b
  | .dslash, a, b => a.floorDiv b
  | .percent, a, b => a.mod b
  | .dstar, a, b => a.pow b
  | .amp, a, b => .ok (a.and b)
  | .bar, a, b => .ok (a.or b)
  | _, _, _ => .error .typeError

/-- A comparison of objects. -/
def OpTok.cmp? : OpTok → Option Cmp
  | .eq => some .eq | .ne => some .ne | .lt => some .lt | .le => some .le | .gt => some .gt | .ge => some .ge | _ => none

/-- Run an expression with the variables `env` (`eval(mod_source, variables.copy())`, cryptarithm.py:79). `and` (from comparison chains) and
`not` look at the truth value of the object. -/
def Ast.run (env : List (Name × Expr)) : Ast → Res Obj
  | .num n => .ok (.int n)
  | .name x => match aget env x with
    | some e => .ok (.expr e)
    | none => .error (.nameError x)
  | .neg a => do return Obj.neg (← a.run env)
  | .not a => do return .int (ofBool (!(← a.run env).truth))
  | .bin o a b => do
    let x ← a.run env
    let y ← b.run env
    o.applyObj x y
  | .cmp o a b => do
    let x ← a.run env
    let y ← b.run env
    match o.cmp? with
    | some c => return Obj.cmp c x y
    | none => .error .typeError
  | .and a b => do
    let x ← a.run env
    if x.truth then b.run env else return x
  | .or a b => do
    let x ← a.run env
    if x.truth then return x else b.run env
  | .call f _ => .error (.nameError f)
  | .callList f _ => .error (.nameError f)

/-- Whether the result, if it is not an expression, is a `bool` rather than an `int`: `not` and comparisons of numbers give a `bool`, `and` and
`or` give one of their operands, `&` and `|` of two bools give a `bool`; comparing two `Const` objects gives an `int` (expression.py:272-300). -/
def Ast.isBool (env : List (Name × Expr)) : Ast → Bool
  | .not _ => true
  | .cmp _ a b => match a.run env, b.run env with
    | .ok (.int _), .ok (.int _) => true
    | _, _ => false
  | .bin o a b => (decide (o = .amp) || decide (o = .bar)) && a.isBool env && b.isBool env
  | .and a b => match a.run env with
    | .ok x => if x.truth then b.isBool env else a.isBool env
    | .error _ => false
  | .or a b => match a.run env with
    | .ok x => if x.truth then a.isBool env else b.isBool env
    | .error _ => false
  | _ => false

/-- An object as the argument of `add_constraint` (model.py:98-104). -/
def Obj.asArg (isBool : Bool) : Obj → CArg
  | .int n => if isBool then .bool (truthy n) else .other
  | .expr e => .expr e

/-- `eval(text, env)`. -/
def pyEval (env : List (Name × Expr)) (text : List Char) : Res Obj :=
  match lexGo text .start with
  | none => .error .syntaxError
  | some toks => match parseBody toks with
    | none => .error .syntaxError
    | some a => a.run env

/-- `eval(text, env)`, as the argument of `add_constraint`. -/
def pyEvalArg (env : List (Name × Expr)) (text : List Char) : Res CArg :=
  match lexGo text .start with
  | none => .error .syntaxError
  | some toks => match parseBody toks with
    | none => .error .syntaxError
    | some a => do return (← a.run env).asArg (a.isBool env)

/-! ## The class -/

/-- The variable of a letter. -/
def letterName (c : Char) : Name := String.singleton c

/-- `CryptarithmSolver.__init__` (cryptarithm.py:15-83): the letters, in the order of the variables. -/
def cryptBuild (ord : List Char → List Char) (source : List Char) (avoid : Bool) : Api (List Char) := do
  let source := source.map Char.toUpper
  let st ← Api.lift (cryptWords source (wordSpans 0 none source) (cryptInit source avoid))
  let letters := ord st.letters
  let es ← Api.each (fun c => addIntVariable (if c ∈ st.nonZero then pyRange 1 10 else pyRange 0 10) (some (letterName c))) letters
  let expr ← Api.lift (pyEvalArg ((letters.map letterName).zip es) st.mod)
  addAllDifferent (es.map Expr.name)
  addConstraint expr
  return letters

/-- Reading the digits of the letters off a solution (the class yields the solutions of the model as they are, solver.py:465-466). -/
def cryptDecode (letters : List Char) (σ : Subst) : Res (List (Char × Int)) :=
  Res.each (fun c => do return (c, ← σ.at (letterName c))) letters

end Satisfy
