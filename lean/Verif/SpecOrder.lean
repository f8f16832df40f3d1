import Verif.SpecSolver
/-!
The order in which the variable selection policies bind the variables (solver.py:29-37, 172-207), in terms of the model and the
constraints only.
-/

namespace Satisfy

/-- The declared variables (not the parameters), in the order of declaration. -/
def Model.declared (m : Model) : List Name := (m.vars.filter (fun p => p.2.domain.isSome)).map (·.1)

/-- Is this an all-different constraint? -/
def CKind.isAllDiff : CKind → Bool
  | .allDiff _ => true
  | _ => false

/-- `l` is `base` sorted: nothing comes behind something that it must come before, and otherwise the order of `base` is kept. -/
structure SortedAs (before : Name → Name → Prop) (base l : List Name) : Prop where
  perm : l.Perm base
  sorted : l.Pairwise (fun x y => ¬ before y x)
  stable : ∀ x y, [x, y].Sublist base → ¬ before x y → ¬ before y x → [x, y].Sublist l

/-- Number of values in the declared domain. -/
def Model.size (m : Model) (x : Name) : Nat := ((m.domain? x).getD []).length

/-- Number of constraints over `x` and at least one other variable, not counting all-different constraints. -/
def conCount (cs : List Constraint) (x : Name) : Nat :=
  (cs.filter (fun c => !c.kind.isAllDiff && decide (x ∈ c.vars) && c.vars.any (fun y => decide (y ≠ x)))).length

/-- For each constraint over `x` the number of its other variables, summed up. -/
def conWeight (cs : List Constraint) (x : Name) : Nat :=
  ((cs.filter (fun c => decide (x ∈ c.vars))).map (fun c => (c.vars.filter (fun y => decide (y ≠ x))).length)).sum

/-- The number of the first all-different constraint over `x`, counting these constraints from 0; -1 if there is none. -/
def firstGroup (cs : List Constraint) (x : Name) : Int :=
  match (cs.filter (fun c => c.kind.isAllDiff)).findIdx? (fun c => decide (x ∈ c.vars)) with
  | some i => i
  | none => -1

/-- The order of the policy GROUPS: by first group, then by weight, then by size of the domain. -/
def GroupsBefore (m : Model) (cs : List Constraint) (x y : Name) : Prop :=
  firstGroup cs x < firstGroup cs y ∨ firstGroup cs x = firstGroup cs y ∧
    (conWeight cs x < conWeight cs y ∨ conWeight cs x = conWeight cs y ∧ m.size x < m.size y)

/-- The variables in the order in which the policy binds them. -/
def PolicyOrder (p : Policy) (shuffle : List Name → List Name) (m : Model) (cs : List Constraint) (l : List Name) : Prop :=
  match p with
  | .ordered => l = m.declared
  | .reversed => l = m.declared.reverse
  | .random => l = shuffle m.declared
  | .groups => SortedAs (GroupsBefore m cs) m.declared.reverse l
  | .minBound => SortedAs (fun x y => m.size x < m.size y) m.declared l
  | .maxBound => SortedAs (fun x y => m.size x > m.size y) m.declared l
  | .minConstraint => SortedAs (fun x y => conCount cs x < conCount cs y) m.declared l
  | .maxConstraint => SortedAs (fun x y => conCount cs x > conCount cs y) m.declared l

end Satisfy
