import Verif.Listing

/-!
# Model of `__repr__` in `src/satisfy/expression.py` and `src/satisfy/constraint.py`

Constants are ints here: the `repr` of a `Const` that holds a bool is not modelled.
-/

namespace Satisfy

/-- `type(self).__name__` of a unary operation (expression.py:433, 444, 607). -/
def UOp.className : UOp → List Char
  | .neg => "Neg".toList | .abs => "Abs".toList | .not => "Not".toList

/-- `type(self).__name__` of a binary operation (expression.py:484-604). -/
def BOp.className : BOp → List Char
  | .add => "Add".toList | .mul => "Mul".toList | .sub => "Sub".toList | .div => "Div".toList | .mod => "Mod".toList | .pow => "Pow".toList
  | .eq => "Eq".toList | .ne => "Ne".toList | .lt => "Lt".toList | .le => "Le".toList | .gt => "Gt".toList | .ge => "Ge".toList
  | .and => "And".toList | .or => "Or".toList

/-- `type(self).__name__` of an accumulation (expression.py:691, 712). -/
def AccKind.className : AccKind → List Char
  | .sum => "Sum".toList | .prod => "Prod".toList

/-- `"{}({})".format(type(self).__name__, inner)`. -/
def callText (cls inner : List Char) : List Char := cls ++ '(' :: inner ++ [')']

mutual
/-- `repr` of an expression: `Const` (expression.py:218-219), `Variable` and `Parameter` (760-763), the operations (349-352)
and the accumulations (670-674). -/
def Expr.reprText : Expr → List Char
  | .const v => callText "Const".toList (intText v)
  | .var x => callText "Variable".toList (reprName x)
  | .param _ n => callText "Parameter".toList (reprName n)
  | .un op e => callText op.className (joinChars [',', ' '] [e.reprText])
  | .bin op l r => callText op.className (joinChars [',', ' '] [l.reprText, r.reprText])
  | .acc k c es => callText k.className (joinChars [',', ' '] (Expr.reprTexts es) ++ ", const=".toList ++ intText c)
/-- `repr(e) for e in self` (expression.py:673). -/
def Expr.reprTexts : List Expr → List (List Char)
  | [] => []
  | e :: es => e.reprText :: Expr.reprTexts es
end

/-- `repr` of a constraint (constraint.py:50-51, 82-83, 93-94). -/
def CKind.reprText : CKind → List Char
  | .const b => callText "ConstConstraint".toList (if b then "True".toList else "False".toList)
  | .expr e => callText "ExpressionConstraint".toList e.reprText
  | .allDiff names => callText "AllDifferentConstraint".toList ('[' :: joinChars [',', ' '] ((sortNames (dedup names)).map reprName) ++ [']'])

end Satisfy
