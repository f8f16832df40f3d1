import Verif.Py

/-!
# Model of the singletons in `src/satisfy/utils.py` (lines 14-41)
-/

namespace Satisfy

/-- The classes (utils.py:14, 33, 37). -/
inductive SClass where
  | singleton | infinity | undefined
  deriving DecidableEq, Repr

/-- Base class: `_Singleton` is derived from `object`, the others from `_Singleton` (utils.py:14, 33, 37). -/
def SClass.base : SClass → Option SClass
  | .singleton => none
  | .infinity => some .singleton
  | .undefined => some .singleton

/-- `type(self).__name__`. -/
def SClass.name : SClass → List Char
  | .singleton => "_Singleton".toList
  | .infinity => "Infinity".toList
  | .undefined => "Undefined".toList

/-- The attributes `__instance__` in the dictionaries of the classes themselves (`none`: there is none; `some none`: it is `None`), and the classes of the
objects made so far. An object is its index. -/
structure Singletons where
  own : SClass → Option (Option Nat)
  objects : List SClass

/-- After the class statements: every class has its own `__instance__ = None` (utils.py:15, 34, 38). -/
def Singletons.start : Singletons := ⟨fun _ => some none, []⟩

/-- `cls.__instance__`: the attribute of the class or else of its base class. -/
def Singletons.get (s : Singletons) (c : SClass) : Res (Option Nat) :=
  match s.own c with
  | some v => .ok v
  | none => match c.base with
    | none => .error .attributeError
    | some b => match s.own b with
      | some v => .ok v
      | none => .error .attributeError

/-- `super().__new__(cls)`: a new object. -/
def Singletons.make (s : Singletons) (c : SClass) : Nat × Singletons := (s.objects.length, { s with objects := s.objects ++ [c] })

/-- `cls.__instance__ = instance`: sets the attribute of the class itself. -/
def Singletons.set (s : Singletons) (c : SClass) (o : Nat) : Singletons := { s with own := fun d => if d = c then some (some o) else s.own d }

/-- `_Singleton.__new__(cls)` (utils.py:17-21). The result is `None` or an object. -/
def Singletons.new (s : Singletons) (c : SClass) : Res (Option Nat × Singletons) := do
  let v ← s.get c
  let s := if v = none then (let (o, s) := s.make c; s.set c o) else s
  return (← s.get c, s)

/-- Calling classes one after the other. -/
def Singletons.news (s : Singletons) : List SClass → Res (List (Option Nat) × Singletons)
  | [] => .ok ([], s)
  | c :: cs => do
    let (o, s) ← s.new c
    let (os, s) ← s.news cs
    return (o :: os, s)

/-- What a method of an object may return: a text or a method bound to the object. -/
inductive SValue where
  | text (s : List Char)
  | method
  deriving DecidableEq

/-- `"{}()".format(self.name())` (utils.py:26-27). -/
def SClass.dunderRepr (c : SClass) : SValue := .text (c.name ++ ['(', ')'])

/-- `self.name`, which is not called (utils.py:29-30). -/
def SClass.dunderStr (_c : SClass) : SValue := .method

/-- `repr(obj)` and `str(obj)` raise `TypeError` if the method returns something else than a text. -/
def SValue.asText : SValue → Res (List Char)
  | .text s => .ok s
  | .method => .error .typeError

end Satisfy
