import Verif.Optimize
import Verif.SpecSolver
import Verif.SpecCompile
/-!
Notions for the statements about optimisation.
-/

namespace Satisfy

mutual
/-- The parameter objects an expression mentions. -/
def Expr.params : Expr → List Nat
  | .const _ => []
  | .var _ => []
  | .param i _ => [i]
  | .un _ e => e.params
  | .bin _ l r => l.params ++ r.params
  | .acc _ _ es => Expr.paramsList es
def Expr.paramsList : List Expr → List Nat
  | [] => []
  | e :: es => e.params ++ Expr.paramsList es
end

/-- The constraint object and the parameter objects it mentions exist already. -/
def Old (h : Heap) (c : Constraint) : Prop :=
  c.id < h.ncons ∧ ∀ e, c.kind = .expr e → ∀ i ∈ e.params, i < h.nparams

/-- `a` is at least as good as `b` for the objective. -/
def Objective.le (o : Objective) (a b : Int) : Prop := if o.maximize then b ≤ a else a ≤ b

instance (o : Objective) (a b : Int) : Decidable (o.le a b) := by unfold Objective.le; infer_instance

/-- The objective has a value whenever its variables are bound to values of their domains. -/
def Objective.Valued (m : Model) (ρ : Store) (o : Objective) : Prop :=
  ∀ σ : Subst, (∀ y ∈ o.expr.vars, ∃ d v, m.domain? y = some d ∧ v ∈ d ∧ σ.get? y = some v) → ∃ v, o.expr.eval ρ σ = .ok v

/-- The objective never gets worse when `x` moves on in its declared domain, the other variables being fixed. -/
def Objective.Improving (m : Model) (ρ : Store) (o : Objective) (x : Name) : Prop :=
  ∀ σ : Subst, (∀ y ∈ o.expr.vars, y ≠ x → ∃ d v, m.domain? y = some d ∧ v ∈ d ∧ σ.get? y = some v) →
    ∀ d, m.domain? x = some d → d.Pairwise (fun v w =>
      ∀ a b, o.expr.eval ρ (σ.set x v) = .ok a → o.expr.eval ρ (σ.set x w) = .ok b → o.le b a)

/-- The objective can be compiled inside the comparison with the bound. -/
def Objective.Safe (ρ : Store) (o : Objective) : Prop := (∃ l, pyLvl ρ o.expr = some l ∧ 4 ≤ l) ∧ ∀ x ∈ o.expr.vars, NameOk x

end Satisfy
