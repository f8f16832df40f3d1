import Verif.Lemmas.Objects
import Verif.Props.Optimize
/-!
# C67: the solutions handed out belong to the caller

`solve` hands out dict objects. Whatever the caller does with the dicts it has, the search goes on as if they had been left alone; and the search never touches a dict once it is handed out.
-/

namespace Satisfy.Props

/-- The caller's view of where the generator is: with which solution it is suspended, whether it has ended, and how. -/
def SamePhase (d : Dicts) : OPhase → Phase → Prop
  | .running, .running => True
  | .suspended r, .suspended σ => d.cell r = σ
  | .finished, .finished => True
  | .raised e, .raised e' => e = e'
  | _, _ => False

/-- All that can be seen of a generator: its phase and the statistics. -/
structure SameGen (s : OSys) (g : Gen) : Prop where
  phase : SamePhase s.dicts s.gen.phase g.phase
  num : s.gen.num = g.num
  interrupt : s.gen.interrupt = g.interrupt
  timer : s.gen.timer = g.timer
  tick : s.gen.tick = g.tick

theorem sameGen_view (s : OSys) : SameGen s (s.gen.view s.dicts) := by
  refine ⟨?_, rfl, rfl, rfl, rfl⟩
  unfold OGen.view OPhase.view SamePhase
  cases s.gen.phase <;> simp

/-- The dicts the caller begins with exist, and are different ones. -/
structure CallerOk (d : Dicts) (given : List Nat) : Prop where
  made : ∀ r ∈ given, r < d.next
  nodup : given.Nodup

/-- Changing the dicts does not change the search: the solutions handed out are those of the search with values (to which all the other theorems apply), the generator goes through the same
states, takes the same time, and does the same to the rest of the program. -/
theorem C67_isolated (a : SolveArgs) (m : Model) (act : Heap → Subst → Res Heap) (es : Nat → List Edit) (d : Dicts) (given : List Nat)
    (hc : CallerOk d given) (n : Nat) (h : Heap) :
    (oSolveRun a m act es d given n h).1 = (solveRun a m act n h).1 ∧
    SameGen (oSolveRun a m act es d given n h).2.1 (solveRun a m act n h).2.1 ∧
    (oSolveRun a m act es d given n h).2.2 = (solveRun a m act n h).2.2 := by
  have := (oSolveRun_eq a m act es d given n h hc.made hc.nodup).2
  rw [← this]
  exact ⟨rfl, sameGen_view _, rfl⟩

/-- Nor does the search change the dicts: in every step, what the caller's dicts contain is what they contained before with the changes the caller has made itself (the `i`-th dict is given
a new content; a new dict is made), followed by the solution that is handed out in this step, if any. -/
theorem C67_untouched (a : SolveArgs) (m : Model) (act : Heap → Subst → Res Heap) (es : Nat → List Edit) (d : Dicts) (given : List Nat)
    (hc : CallerOk d given) (n : Nat) (h : Heap) : ∃ new : List Subst,
    (oSolveRun a m act es d given (n + 1) h).1 = (oSolveRun a m act es d given n h).1 ++ new ∧
    (oSolveRun a m act es d given (n + 1) h).2.1.contents = (es n).foldl Edit.on (oSolveRun a m act es d given n h).2.1.contents ++ new := by
  have hp := (oSolveRun_eq a m act es d given n h hc.made hc.nodup).1
  unfold oSolveRun at *
  rcases hs : oStart a m h d given with ⟨h', info, s⟩
  rw [hs] at hp
  simp only at hp ⊢
  refine ⟨_, oRun_outs a.cfg info act n es s h', ?_⟩
  have ok := oStep_ok a.cfg info act (es n) _ (oRun a.cfg info act n es s h').2.2 hp
  rw [oRun_succ]
  rw [← edit_contents (es n) hp]
  unfold OSys.contents
  rw [ok.given, List.map_append, ok.old]
  rfl

/-- At the beginning the caller has its own dicts. -/
theorem C67_begin (a : SolveArgs) (m : Model) (act : Heap → Subst → Res Heap) (es : Nat → List Edit) (d : Dicts) (given : List Nat)
    (hc : CallerOk d given) (h : Heap) :
    (oSolveRun a m act es d given 0 h).1 = [] ∧ (oSolveRun a m act es d given 0 h).2.1.contents = given.map d.cell := by
  refine ⟨rfl, ?_⟩
  show (oStart a m h d given).2.2.contents = _
  unfold oStart OSys.contents
  by_cases hs : (!m.solvable) = true
  · rw [if_pos hs]
  · rw [if_neg hs]
    rcases setup a.solver.compile m a.adds h with ⟨h', res⟩
    cases res with
    | error e => rfl
    | ok info =>
      simp only
      cases orderVars a.solver.policy a.shuffle m info with
      | nil => rfl
      | cons x xs =>
        apply List.map_congr_left
        intro r hr
        simp [Dicts.make, Nat.ne_of_lt (hc.made r hr)]

/-- The dicts the caller has are all different objects: a solution is never handed out in a dict the caller has already. -/
theorem C67_distinct (a : SolveArgs) (m : Model) (act : Heap → Subst → Res Heap) (es : Nat → List Edit) (d : Dicts) (given : List Nat)
    (hc : CallerOk d given) (n : Nat) (h : Heap) : (oSolveRun a m act es d given n h).2.1.given.Nodup :=
  (oSolveRun_eq a m act es d given n h hc.made hc.nodup).1.nodup

/-- A caller that only collects the dicts has all the solutions in the end: `list(solver.solve(model))` is the list of solutions. -/
theorem C67_collect (a : SolveArgs) (m : Model) (act : Heap → Subst → Res Heap) (d : Dicts) (n : Nat) (h : Heap) :
    (oSolveRun a m act (fun _ => []) d [] n h).2.1.contents = (solveRun a m act n h).1 := by
  have hc : CallerOk d [] := ⟨fun r hr => absurd hr List.not_mem_nil, List.nodup_nil⟩
  rw [← (C67_isolated a m act (fun _ => []) d [] hc n h).1]
  induction n with
  | zero =>
    obtain ⟨h1, h2⟩ := C67_begin a m act (fun _ => []) d [] hc h
    rw [h1, h2]
    rfl
  | succ n ih =>
    obtain ⟨new, h1, h2⟩ := C67_untouched a m act (fun _ => []) d [] hc n h
    rw [h1, h2, ← ih]
    rfl

/-! ## `optimize` -/

/-- The same of `optimize`: the changes of the caller do not reach the objectives either. -/
theorem C67_optimize (a : SolveArgs) (os : List Objective) (es : Nat → List Edit) (d : Dicts) (given : List Nat)
    (hc : CallerOk d given) (n : Nat) (w : World) :
    (oOptimizeRun a os es d given n w).1 = (optimizeRun a os n w).1 ∧
    SameGen (oOptimizeRun a os es d given n w).2.1 (optimizeRun a os n w).2.1 ∧
    (oOptimizeRun a os es d given n w).2.2 = (optimizeRun a os n w).2.2 := by
  unfold oOptimizeRun optimizeRun
  rcases makeConstraints os w with ⟨w', res⟩
  cases res with
  | error e => exact ⟨rfl, ⟨rfl, rfl, rfl, rfl, rfl⟩, rfl⟩
  | ok ks =>
    obtain ⟨h1, h2, h3⟩ := C67_isolated (a.withObjectives ks) w'.model (onSolution ks) es d given hc n w'.heap
    exact ⟨h1, h2, by simp only [h3]⟩

theorem C67_optimize_distinct (a : SolveArgs) (os : List Objective) (es : Nat → List Edit) (d : Dicts) (given : List Nat)
    (hc : CallerOk d given) (n : Nat) (w : World) : (oOptimizeRun a os es d given n w).2.1.given.Nodup := by
  unfold oOptimizeRun
  rcases makeConstraints os w with ⟨w', res⟩
  cases res with
  | error e => exact hc.nodup
  | ok ks => exact C67_distinct (a.withObjectives ks) w'.model (onSolution ks) es d given hc n w'.heap

/-- The solutions of an optimisation stay as they were when they were handed out. -/
theorem C67_optimize_collect (a : SolveArgs) (os : List Objective) (d : Dicts) (n : Nat) (w : World) :
    (oOptimizeRun a os (fun _ => []) d [] n w).2.1.contents = (optimizeRun a os n w).1 := by
  unfold oOptimizeRun optimizeRun
  rcases makeConstraints os w with ⟨w', res⟩
  cases res with
  | error e => rfl
  | ok ks => exact C67_collect (a.withObjectives ks) w'.model (onSolution ks) d n w'.heap

/-! ## Concrete cases -/

/-- No dicts at all. -/
def noDicts : Dicts := ⟨fun _ => [], 0⟩

/-- A caller with one dict of its own, which spoils everything it has in every step: its first four dicts get other contents, with names the search uses; and it makes a new dict. -/
def spoil : Nat → List Edit := fun k => [.change 0 [("x", 7)], .change 1 [], .change 2 [("x", (k : Int)), ("y", 0)], .change 3 [("y", 9)], .make [("x", 5)]]

example : CallerOk ⟨fun _ => [("x", 1)], 1⟩ [0] := ⟨by decide, by decide⟩

/-- The solutions are handed out as if nothing were spoilt. -/
example : (oSolveRun exArgs exModel passive spoil ⟨fun _ => [("x", 1)], 1⟩ [0] 30 exHeap).1 = (solveRun exArgs exModel passive 30 exHeap).1 ∧
    (solveRun exArgs exModel passive 30 exHeap).1.length = 2 := by decide

/-- The first solution is handed out in step 2, as the caller's fourth dict; in step 3 the caller spoils it. -/
example : (oSolveRun exArgs exModel passive spoil ⟨fun _ => [("x", 1)], 1⟩ [0] 2 exHeap).2.1.contents =
    [[("x", 7)], [], [("x", 5)], [("y", 3), ("x", 1)]] := by decide

example : (oSolveRun exArgs exModel passive spoil ⟨fun _ => [("x", 1)], 1⟩ [0] 3 exHeap).2.1.contents =
    [[("x", 7)], [], [("x", 2), ("y", 0)], [("y", 9)], [("x", 5)]] := by decide

/-- `Minimize(x + y)` for `x`, `y` in `(0, 1)`, with a caller that spoils the solutions. -/
example : (oOptimizeRun exArgs [minXY] spoil noDicts [] 12 world2).1 = [[("y", 0), ("x", 0)], [("y", 0), ("x", 1)]] ∧
    (oOptimizeRun exArgs [minXY] (fun _ => []) noDicts [] 12 world2).2.1.contents = [[("y", 0), ("x", 0)], [("y", 0), ("x", 1)]] := by decide

end Satisfy.Props
