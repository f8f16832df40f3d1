import Verif.Settings
import Verif.Boards
/-!
# The command line (tool/__init__.py): the conversion of the arguments

`argparse` itself is not modelled; what it does with an option declared with `nargs='?'` is: absent, it yields `default`; without an argument, `const`
(converted by `type` if it is a string); with one, the argument converted by `type`. Texts are ASCII.
-/

namespace Satisfy

/-- The ASCII characters that `int` ignores around a number. -/
def isBlank (c : Char) : Bool := c.toNat = 32 ∨ (9 ≤ c.toNat ∧ c.toNat ≤ 13) ∨ (28 ≤ c.toNat ∧ c.toNat ≤ 31)

/-- `int(text)`, the digits: `prev` tells whether the last character was a digit; single underscores may stand between digits. -/
def intDigits : Bool → Nat → List Char → Res Nat
  | true, n, [] => .ok n
  | false, _, [] => .error .valueError
  | prev, n, c :: cs =>
    if '0' ≤ c ∧ c ≤ '9' then intDigits true (10 * n + (c.toNat - 48)) cs
    else if c = '_' ∧ prev then intDigits false n cs
    else .error .valueError

/-- `text.strip()`, the left hand side. -/
def dropBlanks : List Char → List Char
  | [] => []
  | c :: cs => if isBlank c then dropBlanks cs else c :: cs

/-- `int(text)` for a `str`. -/
def pyInt (text : List Char) : Res Int :=
  match (dropBlanks (dropBlanks text).reverse).reverse with
  | '-' :: ds => do return -((← intDigits false 0 ds : Nat) : Int)
  | '+' :: ds => do return ((← intDigits false 0 ds : Nat) : Int)
  | ds => do return ((← intDigits false 0 ds : Nat) : Int)

/-- `type_on_off` (tool/__init__.py:45-52). -/
def typeOnOff (x : List Char) : Res Bool :=
  let x := x.map Char.toLower
  if x = "on".toList ∨ x = "true".toList then .ok true
  else if x = "off".toList ∨ x = "false".toList then .ok false
  else do return decide ((← pyInt x) ≠ 0)

/-- An option with `nargs='?'` as given on the command line. -/
inductive OptArg where
  | absent | bare | value (text : List Char)

/-- `-z`: `type=type_on_off, const='on', default=True` (tool/__init__.py:237-242). -/
def zOption : OptArg → Res Bool
  | .absent => .ok true
  | .bare => typeOnOff "on".toList
  | .value t => typeOnOff t

/-- `-l`: `type=int, const=INFINITY, default=None` (tool/__init__.py:261-267). -/
def limitOption : OptArg → Res Setting
  | .absent => .ok .none
  | .bare => .ok .infinity
  | .value t => do return .num (← pyInt t)

/-- What a demo is called with as `input_file` (tool/__init__.py:161-167): `None`, or the file opened by `argparse.FileType('r')`, represented by its content. -/
abbrev InputFile := Option (List Char)

/-- What the demos with a JSON file read: the default source or the file (tool/demo_sudoku.py:68-76, demo_knapsack.py:46-54,
demo_graph_labeling.py:83-91). -/
def jsonSource (default : List Char) : InputFile → Res (List Char)
  | none => .ok default
  | some content => .ok content

/-- What the map demo reads (tool/demo_ascii_map_coloring.py:54-63): it calls `open` with the file, which is no path: `TypeError`. -/
def mapSource (default : List Char) : InputFile → Res (List Char)
  | none => .ok default
  | some _ => .error .typeError

end Satisfy
