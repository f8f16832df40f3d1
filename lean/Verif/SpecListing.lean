import Verif.Listing
import Verif.SpecSolver
/-! Which models have a listing that can be read back. -/

namespace Satisfy

mutual
/-- No accumulation shows exactly two values (then it is printed without brackets), and there are no parameters. Operators never build such an accumulation, only the classes
`Sum` and `Prod` called directly do. -/
def Expr.bracketed : Expr → Bool
  | .const _ => true
  | .var _ => true
  | .param _ _ => false
  | .un _ e => e.bracketed
  | .bin _ l r => l.bracketed && r.bracketed
  | .acc k c es => decide ((if c = k.neutral then 0 else 1) + es.length ≠ 2) && Expr.bracketedAll es
def Expr.bracketedAll : List Expr → Bool
  | [] => true
  | e :: es => e.bracketed && Expr.bracketedAll es
end

/-- An identifier that is not a value of Python. -/
def PlainName (x : Name) : Prop := isIdent x = true ∧ x ≠ "True" ∧ x ≠ "False"

instance (x : Name) : Decidable (PlainName x) := inferInstanceAs (Decidable (_ ∧ _))

/-- The names of the variables and constraints are plain and the expressions are bracketed. -/
structure Readable (m : Model) : Prop where
  names : ∀ x ∈ m.vars.keys, PlainName x
  exprs : ∀ c ∈ m.constraints, ∀ e, c.kind = .expr e → e.bracketed = true
  used : ∀ c ∈ m.constraints, ∀ x ∈ c.vars, PlainName x

/-- The domain objects of the variables. -/
def DomainsOf (dom : Name → PyDomain) (m : Model) : Prop := ∀ x i d, (x, i) ∈ m.vars → i.domain = some d → (dom x).values = d

/-- Solutions of a model at parameter values `ρ`, with the constraints taken by their meaning. -/
def Solves (ρ : Store) (m : Model) (σ : Subst) : Prop := Assignment m σ ∧ ∀ c ∈ m.constraints, Meaning ρ c σ

end Satisfy
