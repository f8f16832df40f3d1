import Verif.Build
/-! Specification of the riddle, on the result: houses with their attributes. -/

namespace Satisfy

/-- The attributes and their values. -/
def einAttrs : List (String × List String) := [
  ("owner", ["English", "Swede", "Dane", "Norwegian", "German"]),
  ("color", ["red", "green", "white", "yellow", "blue"]),
  ("drink", ["water", "coffee", "tea", "milk", "beer"]),
  ("smoke", ["Pall Mall", "Prince", "Dunhill", "Blend", "Blue Master"]),
  ("animal", ["cats", "a dog", "birds", "a horse", "a zebra"])]

abbrev Street := List (Int × List (String × String))

/-- House number `i` has the value `v` of attribute `a`. -/
def Street.Has (z : Street) (i : Int) (a v : String) : Prop := ∃ h ∈ z, h.1 = i ∧ (a, v) ∈ h.2

/-- The fifteen statements, and that each attribute is a bijection between its values and the houses `1, …, 5`. -/
structure Riddle (z : Street) : Prop where
  houses : z.map (fun h => h.1) = [1, 2, 3, 4, 5]
  attrs : ∀ h ∈ z, h.2.map (fun p => p.1) = einAttrs.map (fun p => p.1)
  bij : ∀ p ∈ einAttrs, ∀ v ∈ p.2, ∃ i, z.Has i p.1 v ∧ ∀ j, z.Has j p.1 v → j = i
  only : ∀ h ∈ z, ∀ q ∈ h.2, ∃ p ∈ einAttrs, q.1 = p.1 ∧ q.2 ∈ p.2
  /-- The English man lives in the red house. -/
  s1 : ∃ i, z.Has i "owner" "English" ∧ z.Has i "color" "red"
  /-- The Swede has a dog. -/
  s2 : ∃ i, z.Has i "owner" "Swede" ∧ z.Has i "animal" "a dog"
  /-- The Dane drinks tea. -/
  s3 : ∃ i, z.Has i "owner" "Dane" ∧ z.Has i "drink" "tea"
  /-- The green house is immediately to the left of the white house. -/
  s4 : ∃ i, z.Has i "color" "green" ∧ z.Has (i + 1) "color" "white"
  /-- They drink coffee in the green house. -/
  s5 : ∃ i, z.Has i "color" "green" ∧ z.Has i "drink" "coffee"
  /-- The man who smokes Pall Mall has birds. -/
  s6 : ∃ i, z.Has i "smoke" "Pall Mall" ∧ z.Has i "animal" "birds"
  /-- In the yellow house they smoke Dunhill. -/
  s7 : ∃ i, z.Has i "color" "yellow" ∧ z.Has i "smoke" "Dunhill"
  /-- In the middle house they drink milk. -/
  s8 : z.Has 3 "drink" "milk"
  /-- The Norwegian lives in the first house. -/
  s9 : z.Has 1 "owner" "Norwegian"
  /-- The man who smokes Blend lives in the house next to the house with cats. -/
  s10 : ∃ i j, z.Has i "smoke" "Blend" ∧ z.Has j "animal" "cats" ∧ (j = i + 1 ∨ i = j + 1)
  /-- In a house next to the house where they have a horse, they smoke Dunhill. -/
  s11 : ∃ i j, z.Has i "smoke" "Dunhill" ∧ z.Has j "animal" "a horse" ∧ (j = i + 1 ∨ i = j + 1)
  /-- The man who smokes Blue Master drinks beer. -/
  s12 : ∃ i, z.Has i "smoke" "Blue Master" ∧ z.Has i "drink" "beer"
  /-- The German smokes Prince. -/
  s13 : ∃ i, z.Has i "owner" "German" ∧ z.Has i "smoke" "Prince"
  /-- The Norwegian lives next to the blue house. -/
  s14 : ∃ i j, z.Has i "owner" "Norwegian" ∧ z.Has j "color" "blue" ∧ (j = i + 1 ∨ i = j + 1)
  /-- They drink water in a house next to the house where they smoke Blend. -/
  s15 : ∃ i j, z.Has i "drink" "water" ∧ z.Has j "smoke" "Blend" ∧ (j = i + 1 ∨ i = j + 1)

end Satisfy
