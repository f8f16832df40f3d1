import Verif.SpecSolver
import Verif.SpecCryptarithm
/-!
What the texts printed by the demos claim.
-/

namespace Satisfy

/-- There are exactly `n` solutions (dicts with the same items are the same solution). -/
def SolutionCount (m : Model) (cs : List Constraint) (h : Heap) (n : Nat) : Prop :=
  ∃ L : List Subst, L.length = n ∧ (∀ σ ∈ L, IsSolution m cs h σ) ∧ L.Pairwise (fun σ τ => ¬ SameDict σ τ) ∧
    ∀ τ, IsSolution m cs h τ → ∃ σ ∈ L, SameDict σ τ

/-- A true equation between numbers: no letters are left, and both sides have the same value. -/
def TrueEquation (text : List Char) : Prop :=
  ∃ l r, CSource text l r ∧ (∀ c, ¬ CLetter l r c) ∧ ∀ d, l.value d = r.value d

/-- The text with every letter that has a digit replaced by it. -/
def withDigits (d : Char → Option Nat) (text : List Char) : List Char :=
  text.map (fun c => match d c with | some n => Char.ofNat (48 + n) | none => c)

end Satisfy
