import Verif.SpecOrder
/-!
Partial assignments that a backtracking search has to look at.  Nothing here refers to the search.
-/

namespace Satisfy

/-- `σ` binds the variables `pre`, in this order, to values of their domains; every constraint whose variables are all bound is true;
of the variables of an all-different constraint, those that are bound have different values. -/
structure Consistent (m : Model) (cs : List Constraint) (h : Heap) (pre : List Name) (σ : Subst) : Prop where
  keys : σ.keys = pre
  dom : ∀ x v, σ.get? x = some v → ∃ d, m.domain? x = some d ∧ v ∈ d
  con : ∀ c ∈ cs, c.kind.isAllDiff = false → c.vars ≠ [] → (∀ x ∈ c.vars, x ∈ pre) → Holds h c σ
  diff : ∀ c ∈ cs, c.kind.isAllDiff = true → ∀ x ∈ c.vars, ∀ y ∈ c.vars, x ∈ pre → y ∈ pre → x ≠ y → σ.get? x ≠ σ.get? y

end Satisfy
