import Verif.Lemmas.Repeat2
import Verif.Props.Knapsack
/-!
C49: using a model again.
-/

namespace Satisfy.Props

/-- A use of a model: `n` steps of iterating `solve(model, …)` or `optimize(model, objectives, …)`; the iteration may be broken off. -/
inductive Use where
  | solve (a : SolveArgs) (n : Nat)
  | optimize (a : SolveArgs) (os : List Objective) (n : Nat)

def Use.args : Use → SolveArgs
  | .solve a _ => a
  | .optimize a _ _ => a

def Use.run (w : World) : Use → World
  | .solve a n => { w with heap := (solveRun a w.model passive n w.heap).2.2 }
  | .optimize a os n => (optimizeRun a os n w).2.2

def runUses (us : List Use) (w : World) : World := us.foldl Use.run w

/-! ## What uses leave as it was -/

theorem Kept.refl {w : World} (hi : NameInv w.model.vars) : Kept w w :=
  ⟨⟨[], by simp, by simp, by simp⟩, hi, rfl, rfl, fun _ => rfl, rfl, fun _ _ => rfl, Nat.le_refl _, Nat.le_refl _⟩

theorem Kept.trans {w v u : World} (h1 : Kept w v) (h2 : Kept v u) : Kept w u := by
  obtain ⟨x1, v1, d1, f1⟩ := h1.vars
  obtain ⟨x2, v2, d2, f2⟩ := h2.vars
  refine ⟨⟨x1 ++ x2, by rw [v2, v1, List.append_assoc], ?_, ?_⟩, h2.inv, h2.cons.trans h1.cons, h2.solvable.trans h1.solvable,
    fun x => (h2.domain x).trans (h1.domain x), h2.pure.trans h1.pure, fun i hi => ?_, h1.nparams.trans h2.nparams, h1.ncons.trans h2.ncons⟩
  · intro q hq
    rcases List.mem_append.1 hq with h | h
    · exact d1 q h
    · exact d2 q h
  · intro q hq
    rcases List.mem_append.1 hq with h | h
    · exact f1 q h
    · intro hm
      refine f2 q h ?_
      rw [v1, Dict.keys_append]
      exact List.mem_append_left _ hm
  · have := h1.nparams
    exact (h2.params i (by omega)).trans (h1.params i hi)

theorem solve_heap (a : SolveArgs) (m : Model) (n : Nat) (h : Heap) :
    (solveRun a m passive n h).2.2 = (startSolve a m h).1 := by
  rw [solveRun_eq]
  exact sysRun_inv (Inv := fun s : Heap => s = (startSolve a m h).1) _ _
    (fun s σ s' h1 h2 => by simp only [passive, Except.ok.injEq] at h2; rw [← h2, h1]) n _ _ rfl

theorem use_kept (u : Use) (w : World) (hi : NameInv w.model.vars) : Kept w (u.run w) := by
  cases u with
  | solve a n =>
    simp only [Use.run]
    rw [solve_heap]
    obtain ⟨pre, _, _, hh⟩ := startSolve_heap a w.model w.heap
    obtain ⟨e1, e2⟩ := compileAll_counts a.solver.compile pre w.heap
    refine ⟨⟨[], by simp, by simp, by simp⟩, hi, rfl, rfl, fun _ => rfl, rfl, fun i _ => ?_, ?_, ?_⟩
    · show (startSolve a w.model w.heap).1.params i = _
      rw [hh, compileAll_params]
    · show _ ≤ (startSolve a w.model w.heap).1.nparams
      rw [hh, e1]
    · show _ ≤ (startSolve a w.model w.heap).1.ncons
      rw [hh, e2]
  | optimize a os n => exact C31_model [⟨a, os, n⟩] w hi

theorem uses_kept (us : List Use) : ∀ (w : World), NameInv w.model.vars → Kept w (runUses us w) := by
  induction us with
  | nil => exact fun w hi => .refl hi
  | cons u us ih =>
    intro w hi
    have h1 := use_kept u w hi
    exact h1.trans (ih (u.run w) h1.inv)

theorem uses_fns (us : List Use) : ∀ (w : World), NameInv w.model.vars → (∀ u ∈ us, u.args.solver.compile = false) →
    ∀ i < w.heap.ncons, (runUses us w).heap.fns i = w.heap.fns i := by
  induction us with
  | nil => intro w _ _ i _; rfl
  | cons u us ih =>
    intro w hi hc i hlt
    have h1 := use_kept u w hi
    have n1 := h1.ncons
    rw [show runUses (u :: us) w = runUses us (u.run w) from rfl,
      ih (u.run w) h1.inv (fun u' hu' => hc u' (by simp [hu'])) i (by omega)]
    have hu := hc u (by simp)
    cases u with
    | solve a n =>
      simp only [Use.run]
      rw [solve_heap]
      obtain ⟨pre, _, _, hh⟩ := startSolve_heap a w.model w.heap
      rw [hh, show a.solver.compile = false from hu]
      rfl
    | optimize a os n => exact runOpts_fns [⟨a, os, n⟩] (by simpa [Use.args] using hu) w hi i hlt

theorem fns_or_compile {a : SolveArgs} {us : List Use} (hc : ∀ u ∈ us, u.args.solver.compile = true → a.solver.compile = true) {w : World}
    (hi : NameInv w.model.vars) : a.solver.compile = false → ∀ i < w.heap.ncons, (runUses us w).heap.fns i = w.heap.fns i := by
  intro ha
  refine uses_fns us w hi (fun u hu => ?_)
  cases h : u.args.solver.compile with
  | false => rfl
  | true => rw [hc u hu h] at ha; cases ha

/-! ## C49 -/

/-- C49: `optimize` hands out the same solutions in the same order, after the same work and with the same end, whatever solving and optimising
was done with the model before; none of it compiled, or this call does. -/
theorem C49_optimize {a : SolveArgs} {os : List Objective} {w : World} (hok : OptOk a os w) (us : List Use)
    (hc : ∀ u ∈ us, u.args.solver.compile = true → a.solver.compile = true) (n : Nat) :
    (optimizeRun a os n (runUses us w)).1 = (optimizeRun a os n w).1 ∧
    (optimizeRun a os n (runUses us w)).2.1 = (optimizeRun a os n w).2.1 := by
  have := optimizeRun_again hok.names hok.solve.ids hok.old hok.objs (uses_kept us w hok.names) (fns_or_compile hc hok.names) n
  exact ⟨this.1.symm, this.2.symm⟩

/-- C49: so `optimal_solution` returns (or raises) the same. -/
theorem C49_optimal_solution {a : SolveArgs} {os : List Objective} {w : World} (hok : OptOk a os w) (us : List Use)
    (hc : ∀ u ∈ us, u.args.solver.compile = true → a.solver.compile = true) (n : Nat) :
    optimalSolution (optimizeRun a os n (runUses us w)) = optimalSolution (optimizeRun a os n w) := by
  obtain ⟨h1, h2⟩ := C49_optimize hok us hc n
  unfold optimalSolution
  rw [h1, h2]

/-- C49: and `solve` hands out the same. -/
theorem C49_solve {a : SolveArgs} {w : World} (hok : OptOk a [] w) (us : List Use)
    (hc : ∀ u ∈ us, u.args.solver.compile = true → a.solver.compile = true) (n : Nat) :
    (solveRun a (runUses us w).model passive n (runUses us w).heap).1 = (solveRun a w.model passive n w.heap).1 ∧
    (solveRun a (runUses us w).model passive n (runUses us w).heap).2.1 = (solveRun a w.model passive n w.heap).2.1 := by
  have h := C49_optimize hok us hc n
  have hact : onSolution [] = passive := rfl
  have key : ∀ v, optimizeRun a [] n v = ((solveRun a v.model passive n v.heap).1, (solveRun a v.model passive n v.heap).2.1,
      { v with heap := (solveRun a v.model passive n v.heap).2.2 }) := by
    intro v
    rw [optimizeRun_eq (ks := []) (w' := v) rfl, hact]
    have : a.withObjectives [] = a := by simp [SolveArgs.withObjectives]
    rw [this]
  rw [key, key] at h
  exact h

/-- C49: calling a `KnapsackOptimizer` (with weights that can be iterated again) any number of times gives the same result each time. -/
theorem C49_knapsack (h : Heap) {values caps : List Int} {rows : List (List Int)} (hne : values ≠ []) (hwf : WellFormed values caps rows) :
    ∃ w k, knapBuild (values.map some) (caps.map some) (seqOf rows) ⟨.empty, h⟩ = (w, .ok (some k)) ∧
      ∀ a : SolveArgs, (∀ l, (a.shuffle l).Perm l) → a.adds = [] → ∀ us : List Use, (∀ u ∈ us, u.args.solver.compile = true → a.solver.compile = true) →
        ∀ n, knapCall a (some k) n (runUses us w) = knapCall a (some k) n w := by
  obtain ⟨w, hw, hb⟩ := seq_built h hne hwf
  refine ⟨w, _, hw, fun a hs ha us hc n => ?_⟩
  have := C49_optimal_solution (hb.optOk hs ha (kgoal values caps rows).params) us hc n
  simp only [knapCall]
  rw [this]

/-- The assumption about compiling is needed: the optimisation leaves compiled functions in the constraints of the model, which a solver that
does not compile uses, and which mean something else (C05). -/
theorem C49_mixed :
    let a : SolveArgs := { exArgs with solver := { compile := false } }
    let w := runUses [.optimize exArgs [maxXY] 20] world3
    (optimizeRun a [minXY] 20 world3).1 = [[("y", 1), ("x", 1)]] ∧
    (optimizeRun a [minXY] 20 w).1 = [[("y", 0), ("x", 1)]] := by decide

/-- A history with a broken-off optimisation, a solution search and another optimisation. -/
example : optimalSolution (optimizeRun exArgs [maxXY] 12 (runUses [.optimize exArgs [minXY] 3, .solve exArgs 5, .optimize exArgs [maxXY] 20] world2)) =
    some (.ok ⟨true, some [("y", 1), ("x", 1)]⟩) :=
  (C49_optimal_solution (world2_ok maxXY rfl) _ (by intro u hu _; rfl) 12).trans (by decide)

end Satisfy.Props
