import Verif.Graph
/-!
# tool/einstein_riddle.py

The strings of `__statements__` and `riddle()` are only printed. The selection policy that the class sets by default is part of the
arbitrary solver settings.
-/

namespace Satisfy

/-- `mkname` (einstein_riddle.py:33-34). -/
def mkname (tokens : List String) : Name :=
  "_".intercalate (tokens.map (fun t => String.ofList (t.toList.map (fun c => if c = ' ' then '_' else c))))

/-- `{v: model.add_int_variable(domain=indices, name=mkname(attr, v)) for v in values}` (einstein_riddle.py:39-52). The keys are
different literals. -/
def einGroup (attr : String) (values : List String) : Api (List (String × Expr)) :=
  Api.each (fun v => do
    let x ← addIntVariable (pyRange 1 6) (some (mkname [attr, v]))
    return (v, x)) values

/-- `model.add_all_different_constraint(d.values())` (einstein_riddle.py:62-66). -/
def einDiff (d : List (String × Expr)) : Api Unit := addAllDifferent (d.map (fun p => p.2.name))

/-- `model.add_constraint(d[k] == d'[k'])`, statements 1, 2, 3, 5, 6, 7, 12, 13 (einstein_riddle.py:71-77, 83-89, 106, 109). -/
def einSame (d : List (String × Expr)) (k : String) (d' : List (String × Expr)) (k' : String) : Api Unit := do
  let x ← Api.lift (aat d k)
  let y ← Api.lift (aat d' k')
  addConstraint (cmpArg .eq (.expr x) (.expr y))

/-- `model.add_constraint(d[k] == (d[k'] - 1))`, statement 4 (einstein_riddle.py:80). -/
def einLeft (d : List (String × Expr)) (k : String) (d' : List (String × Expr)) (k' : String) : Api Unit := do
  let x ← Api.lift (aat d k)
  let y ← Api.lift (aat d' k')
  addConstraint (cmpArg .eq (.expr x) ((Obj.expr y).sub (.int 1)))

/-- `model.add_constraint(d[k] == n)`, statements 8, 9 (einstein_riddle.py:92, 95). -/
def einAt (d : List (String × Expr)) (k : String) (n : Int) : Api Unit := do
  let x ← Api.lift (aat d k)
  addConstraint (cmpArg .eq (.expr x) (.int n))

/-- A variable with domain `[-1, 1]` for the difference, statements 10, 11, 14, 15 (einstein_riddle.py:98-99, 102-103, 112-113,
116-117). -/
def einNext (d : List (String × Expr)) (k : String) (d' : List (String × Expr)) (k' : String) (name : Name) : Api Unit := do
  let pm ← addIntVariable [-1, 1] (some name)
  let x ← Api.lift (aat d k)
  let y ← Api.lift (aat d' k')
  addConstraint (cmpArg .eq ((Obj.expr x).sub (.expr y)) (.expr pm))

/-- The constraints (einstein_riddle.py:62-117). -/
def einRules (owner color drink smoke animal : List (String × Expr)) : Api Unit := do
  einDiff owner
  einDiff color
  einDiff drink
  einDiff smoke
  einDiff animal
  einSame owner "English" color "red"
  einSame owner "Swede" animal "a dog"
  einSame owner "Dane" drink "tea"
  einLeft color "green" color "white"
  einSame color "green" drink "coffee"
  einSame smoke "Pall Mall" animal "birds"
  einSame color "yellow" smoke "Dunhill"
  einAt drink "milk" 3
  einAt owner "Norwegian" 1
  einNext smoke "Blend" animal "cats" "Blend_cats"
  einNext smoke "Dunhill" animal "a horse" "Dunhill_horse"
  einSame smoke "Blue Master" drink "beer"
  einSame owner "German" smoke "Prince"
  einNext owner "Norwegian" color "blue" "Norwegian_blue"
  einNext drink "water" smoke "Blend" "water_Blend"

/-- `EinsteinRiddleSolver.__init__` (einstein_riddle.py:27-121): the result is `self._variables`. -/
def einBuild : Api (List (String × List (String × Expr))) := do
  let owner ← einGroup "owner" ["English", "Swede", "Dane", "Norwegian", "German"]
  let color ← einGroup "color" ["red", "green", "white", "yellow", "blue"]
  let drink ← einGroup "drink" ["water", "coffee", "tea", "milk", "beer"]
  let smoke ← einGroup "smoke" ["Pall Mall", "Prince", "Dunhill", "Blend", "Blue Master"]
  let animal ← einGroup "animal" ["cats", "a dog", "birds", "a horse", "a zebra"]
  einRules owner color drink smoke animal
  return [("owner", owner), ("color", color), ("drink", drink), ("smoke", smoke), ("animal", animal)]

/-- The inner loop (einstein_riddle.py:145-147): `z_sol[house_index][attr] = value`. -/
def einFill (σ : Subst) (attr : String) : List (String × Expr) → List (Int × List (String × String)) → Res (List (Int × List (String × String)))
  | [], z => .ok z
  | (value, x) :: d, z => do
    let i ← σ.at x.name
    let house ← aat z i
    einFill σ attr d (aset z i (aset house attr value))

/-- The outer loop (einstein_riddle.py:144-147). -/
def einFillAll (σ : Subst) : List (String × List (String × Expr)) → List (Int × List (String × String)) → Res (List (Int × List (String × String)))
  | [], z => .ok z
  | (attr, d) :: vs, z => do
    let z ← einFill σ attr d z
    einFillAll σ vs z

/-- The body of the loop in `__iter__` (einstein_riddle.py:141-148). -/
def einDecode (vs : List (String × List (String × Expr))) (σ : Subst) : Res (List (Int × List (String × String))) :=
  einFillAll σ vs ((pyRange 1 6).map (fun i => (i, [])))

end Satisfy
