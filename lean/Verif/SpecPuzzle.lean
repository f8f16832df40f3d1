import Verif.Build
/-! What it means that a puzzle solver works. -/

namespace Satisfy

/-- What a puzzle solver's iteration amounts to: `(run n).1` are the decoded results so far (after `n` steps), `valid` what they
should be. -/
structure PuzzleAll {β : Type} (a : SolveArgs) (run : Nat → Res (List β) × Gen) (valid : β → Prop) : Prop where
  /-- every result is right, and nothing raises -/
  sound : ∀ n, ∃ L, (run n).1 = .ok L ∧ ∀ b ∈ L, valid b
  /-- the iteration ends by itself with all of them, or was cut off by the limit or the timeout -/
  complete : ∃ N, ∀ n ≥ N, ∃ L, (run n).1 = .ok L ∧ (run n).2.phase = .finished ∧
    (((run n).2.interrupt = none ∧ ∀ b, b ∈ L ↔ valid b) ∨
     ((run n).2.interrupt = some .limit ∧ ∃ l, a.solver.limit = some l ∧ L.length = max 1 l.toNat) ∨
     ((run n).2.interrupt = some .timeout ∧ a.solver.timeout.isSome))

/-- … and each result comes once. -/
structure PuzzleRun {β : Type} (a : SolveArgs) (run : Nat → Res (List β) × Gen) (valid : β → Prop) : Prop
    extends PuzzleAll a run valid where
  once : ∀ n L, (run n).1 = .ok L → L.Nodup

/-! For the examples. -/

/-- Nothing else around. -/
def heap0 : Heap := ⟨fun _ => 0, fun _ => none, 0, 0⟩

/-- The world and the result of a construction. -/
def built {α : Type} (f : Api α) (d : α) : World × α :=
  match f ⟨.empty, heap0⟩ with
  | (w, .ok x) => (w, x)
  | (w, .error _) => (w, d)

end Satisfy
