import Verif.Source
import Verif.Solver
/-!
# The listing of a model (tool/demo_utils.py:8-14)

`print_model` prints every variable with its domain and every constraint. The model keeps of a domain only its values; what is printed also depends on the kind of object that was
handed to `add_int_variable`, so the listing takes the domain objects as an argument. A set is given by its elements in the order of iteration. Iterators and other iterables are left out.
-/

namespace Satisfy

/-- The values of `range(a, b, s)`; `range` itself refuses `s = 0`. -/
def rangeVals (a b s : Int) : List Int :=
  let n := if 0 < s then (b - a + s - 1) / s else if s < 0 then (a - b - s - 1) / (-s) else 0
  (List.range n.toNat).map (fun (i : Nat) => a + (i : Int) * s)

/-- The objects used as domains. -/
inductive PyDomain where
  | list (vs : List Int)
  | tuple (vs : List Int)
  | range (a b s : Int)
  | set (vs : List Int)
  deriving DecidableEq

/-- Iterating over the domain. -/
def PyDomain.values : PyDomain → List Int
  | .list vs => vs
  | .tuple vs => vs
  | .range a b s => rangeVals a b s
  | .set vs => vs

/-- `str` of a domain. -/
def PyDomain.text : PyDomain → List Char
  | .list vs => '[' :: joinChars [',', ' '] (vs.map intText) ++ [']']
  | .tuple [v] => '(' :: intText v ++ [',', ')']
  | .tuple vs => '(' :: joinChars [',', ' '] (vs.map intText) ++ [')']
  | .range a b s => "range(".toList ++ joinChars [',', ' '] ((if s = 1 then [a, b] else [a, b, s]).map intText) ++ [')']
  | .set [] => "set()".toList
  | .set vs => '{' :: joinChars [',', ' '] (vs.map intText) ++ ['}']

/-- `repr` of a name. Names consist of letters, digits and underscores, with perhaps a newline at the end (model.py:30). -/
def reprName (x : Name) : List Char := '\'' :: x.toList.flatMap (fun c => if c = '\n' then ['\\', 'n'] else [c]) ++ ['\'']

/-- `"{:4d}"` of an index. -/
def index4 (n : Nat) : List Char := List.replicate (4 - (natStr n).length) ' ' ++ natStr n

/-- `sorted` of some names. -/
def insertName (x : Name) : List Name → List Name
  | [] => [x]
  | y :: ys => if x ≤ y then x :: y :: ys else y :: insertName x ys

def sortNames : List Name → List Name
  | [] => []
  | x :: xs => insertName x (sortNames xs)

/-- How an all-different constraint starts (constraint.py:93-94). -/
def allDiffHead : List Char := "AllDifferentConstraint([".toList

/-- `str` of a constraint: constraint.py:53-54, 85-86, 93-94 (there is no `__str__` for the last, so `repr` is used). -/
def CKind.text : CKind → List Char
  | .const b => if b then "True".toList else "False".toList
  | .expr e => e.strText
  | .allDiff names => allDiffHead ++ joinChars [',', ' '] ((sortNames (dedup names)).map reprName) ++ [']', ')']

/-- One line of the first part (tool/demo_utils.py:11). -/
def varLine (dom : Name → PyDomain) (i : Nat) (p : Name × VarInfo) : List Char :=
  ' ' :: index4 i ++ [')', ' '] ++ reprName p.1 ++ " domain: ".toList ++ (match p.2.domain with
    | none => "None".toList
    | some _ => (dom p.1).text)

/-- One line of the second part (tool/demo_utils.py:14). -/
def conLine (i : Nat) (c : Constraint) : List Char := ' ' :: index4 i ++ [')', ' '] ++ c.kind.text

/-- What `print_model` prints (tool/demo_utils.py:8-14). -/
def listing (dom : Name → PyDomain) (m : Model) : List Char :=
  (["", "=== model variables: ==="].map String.toList ++ m.vars.mapIdx (varLine dom) ++
    ["", "=== model constraints: ==="].map String.toList ++ m.constraints.mapIdx conLine).flatMap (· ++ ['\n'])

end Satisfy
