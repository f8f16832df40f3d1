import Verif.Solver
/-!
What it means to be a solution, and the order of solutions.  Nothing here refers to the search.
-/

namespace Satisfy

/-- The constraint is true under `σ`: evaluating it gives a truthy value. (For what evaluation means see
C01-C06 for expressions, C10 for all-different.) -/
def Holds (h : Heap) (c : Constraint) (σ : Subst) : Prop := ∃ r, c.evaluate h σ = .ok r ∧ r ≠ 0

/-- The declared domain of a variable of the model (`none`: no such variable, or a parameter). -/
def Model.domain? (m : Model) (x : Name) : Option (List Int) := (m.vars.get? x).bind (·.domain)

/-- `σ` binds exactly the variables of the model, to values of their domains. -/
structure Assignment (m : Model) (σ : Subst) : Prop where
  nodup : σ.keys.Nodup
  keys : ∀ x, x ∈ σ.keys ↔ (m.domain? x).isSome
  dom : ∀ x v, σ.get? x = some v → ∃ d, m.domain? x = some d ∧ v ∈ d

/-- A solution: an assignment under which all the constraints hold. -/
structure IsSolution (m : Model) (cs : List Constraint) (h : Heap) (σ : Subst) : Prop extends Assignment m σ where
  con : ∀ c ∈ cs, Holds h c σ

/-- Models built through the API: names are distinct, domains have no duplicates. -/
structure Model.WF (m : Model) : Prop where
  names : m.vars.keys.Nodup
  doms : ∀ x d, m.domain? x = some d → d.Nodup

/-- The constraint mentions at least one variable, and only variables of the model. -/
def Over (m : Model) (c : Constraint) : Prop := c.vars ≠ [] ∧ ∀ x ∈ c.vars, (m.domain? x).isSome

/-- Constraint objects with the same identity are the same object. -/
def SameIds (cs : List Constraint) : Prop := ∀ c ∈ cs, ∀ c' ∈ cs, c.id = c'.id → c = c'

/-- Two dicts are equal as Python dicts. -/
def SameDict (σ τ : Subst) : Prop := ∀ x, σ.get? x = τ.get? x

/-- The meaning of a constraint, independent of compilation: the expression has a non-zero value at the
parameter values `ρ`; the variables of an all-different constraint are bound to different values. -/
def Meaning (ρ : Store) (c : Constraint) (σ : Subst) : Prop :=
  match c.kind with
  | .const b => b = true
  | .expr e => ∃ r, e.eval ρ σ = .ok r ∧ r ≠ 0
  | .allDiff ns => (∀ x ∈ ns, σ.get? x ≠ none) ∧ ∀ x ∈ ns, ∀ y ∈ ns, x ≠ y → σ.get? x ≠ σ.get? y

/-- `σ` comes before `τ`: at the first of the variables `xs` where they differ, `σ`'s value is earlier in
the domain. -/
def LexBefore (dom : Name → List Int) (xs : List Name) (σ τ : Subst) : Prop :=
  ∃ pre x post v w, xs = pre ++ x :: post ∧ (∀ y ∈ pre, σ.get? y = τ.get? y) ∧
    σ.get? x = some v ∧ τ.get? x = some w ∧ (dom x).idxOf v < (dom x).idxOf w

end Satisfy
