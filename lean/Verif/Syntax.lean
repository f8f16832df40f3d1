import Verif.Expr
/-!
# Python syntax over expressions

What a program writes is Python source: besides the operators an expression class can define, there are chained comparisons, `and`, `or`, `not`, `if … else`, `in`, `max` and `min`. For these
Python asks whether an object is true. No class in expression.py defines `__bool__`; `Collection` defines `__len__` (expression.py:338-339), which is what `bool` uses (`Obj.truth` in `Expr.lean`).
`__not__` (expression.py:151-152) is not a Python protocol method and is never called.
-/

namespace Satisfy

/-- `a < b <= d`: `a < b and b <= d`, with `b` evaluated once (Python language). -/
def Obj.chain (c₁ c₂ : Cmp) (a b d : Obj) : Obj :=
  let r := Obj.cmp c₁ a b
  if r.truth then Obj.cmp c₂ b d else r

/-- A chain of any length: `a` is compared to the first, the first to the second, and so on. -/
def Obj.chainAll (a : Obj) : List (Cmp × Obj) → Obj
  | [] => a
  | [(c, b)] => Obj.cmp c a b
  | (c, b) :: cs => let r := Obj.cmp c a b
    if r.truth then Obj.chainAll b cs else r

/-- `a and b`, `a or b`, `not a`, both operands being there already. -/
def Obj.both (a b : Obj) : Obj := if a.truth then b else a
def Obj.either (a b : Obj) : Obj := if a.truth then a else b
def Obj.not (a : Obj) : Obj := .int (ofBool (!a.truth))

/-- `max(a, …)`: an item replaces the current one if `item > current` is true. -/
def Obj.pyMax (a : Obj) (os : List Obj) : Obj := os.foldl (fun m o => if (Obj.cmp .gt o m).truth then o else m) a

/-- `min(a, …)`. -/
def Obj.pyMin (a : Obj) (os : List Obj) : Obj := os.foldl (fun m o => if (Obj.cmp .lt o m).truth then o else m) a

/-- `a in os` for objects that are not identical to `a`. -/
def Obj.isIn (a : Obj) (os : List Obj) : Bool := os.any (fun o => (Obj.cmp .eq o a).truth)

/-- Python source. -/
inductive Src where
  | lit (n : Int)
  | name (x : Name)
  | neg (a : Src)
  | abs (a : Src)
  | pos (a : Src)
  | add (a b : Src)
  | sub (a b : Src)
  | mul (a b : Src)
  | div (a b : Src)
  | mod (a b : Src)
  | pow (a b : Src)
  | cmp (c : Cmp) (a b : Src)
  | amp (a b : Src)
  | bar (a b : Src)
  | chain (c₁ c₂ : Cmp) (a b d : Src)
  | both (a b : Src)
  | either (a b : Src)
  | no (a : Src)
  | cond (c a b : Src)
  | max (a b : Src)
  | min (a b : Src)

/-- What Python makes of the source when the names stand for the objects `env`. -/
def Src.obj (env : Name → Obj) : Src → Res Obj
  | .lit n => .ok (.int n)
  | .name x => .ok (env x)
  | .neg a => do return (← a.obj env).neg
  | .abs a => do return (← a.obj env).abs
  | .pos a => do return (← a.obj env).pos
  | .add a b => do return (← a.obj env).add (← b.obj env)
  | .sub a b => do return (← a.obj env).sub (← b.obj env)
  | .mul a b => do return (← a.obj env).mul (← b.obj env)
  | .div a b => do (← a.obj env).div (← b.obj env)
  | .mod a b => do (← a.obj env).mod (← b.obj env)
  | .pow a b => do (← a.obj env).pow (← b.obj env)
  | .cmp c a b => do return Obj.cmp c (← a.obj env) (← b.obj env)
  | .amp a b => do return (← a.obj env).and (← b.obj env)
  | .bar a b => do return (← a.obj env).or (← b.obj env)
  | .chain c₁ c₂ a b d => do
    let x ← a.obj env
    let y ← b.obj env
    let r := Obj.cmp c₁ x y
    if r.truth then return Obj.cmp c₂ y (← d.obj env) else return r
  | .both a b => do
    let x ← a.obj env
    if x.truth then b.obj env else return x
  | .either a b => do
    let x ← a.obj env
    if x.truth then return x else b.obj env
  | .no a => do return (← a.obj env).not
  | .cond c a b => do
    let x ← c.obj env
    if x.truth then a.obj env else b.obj env
  | .max a b => do return Obj.pyMax (← a.obj env) [← b.obj env]
  | .min a b => do return Obj.pyMin (← a.obj env) [← b.obj env]

end Satisfy
