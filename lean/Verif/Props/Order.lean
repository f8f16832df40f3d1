import Verif.Props.Solver
import Verif.Lemmas.Order
/-! C45: the order in which the variables are bound, for every policy. -/

namespace Satisfy.Props

/-- C45: one order of the variables is the order of the policy, every solution handed out lists the variables in this order, and the
solutions come in lexicographic order with regard to it (values compared by their position in the declared domain). -/
theorem C45_order {a : SolveArgs} {m : Model} {h : Heap} (hok : SolveOk a m h) (n : Nat) (hne : (solveRun a m passive n h).1 ≠ []) :
    ∃ names, PolicyOrder a.solver.policy a.shuffle m (m.constraints ++ a.adds) names ∧
      (∀ σ ∈ (solveRun a m passive n h).1, σ.keys = names) ∧
      (solveRun a m passive n h).1.Pairwise (LexBefore (fun x => (m.domain? x).getD []) names) := by
  cases startCase (a := a) m h hok.shuffle with
  | idle h1 _ => rw [solveRun_idle (ph := .finished) trivial h1] at hne; exact absurd rfl hne
  | fail e h1 _ _ => rw [solveRun_idle (ph := .raised e) trivial h1] at hne; exact absurd rfl hne
  | go H info _ hset hst hnn hp =>
    obtain ⟨hH, hinv, _⟩ := setup_spec hok.ids hset
    have hnd := hp.nodup_iff.2 (pureVars_nodup hok.wf.names)
    refine ⟨orderVars a.solver.policy a.shuffle m info, policyOrder hok.wf.names hinv (setup_key hset) _ _, ?_, ?_⟩
    · rw [solveRun_eq, hst]
      intro σ hσ
      have hpre := (run_first a.cfg (candidates info) passive _ hnn hnd (a.clock 0) H).2 n
      have hpath := (dfs_sound (Inv := fun _ => True) (P := fun _ _ _ => True) (act := passive) (cand := candidates info)
        (fun _ _ _ _ _ => trivial) (fun _ _ _ _ _ _ _ _ => trivial) (orderVars a.solver.policy a.shuffle m info) [] H trivial).1 σ (hpre.subset hσ)
      simpa [Dict.keys] using hpath.keys hnd (fun _ _ => rfl)
    · rw [solveRun_eq, hst]
      have hpre := (run_first a.cfg (candidates info) passive _ hnn hnd (a.clock 0) H).2 n
      refine List.Pairwise.sublist hpre.sublist (dfs_sorted ?_ ?_ _ hnd [] H)
      · intro s x σ vs hvs
        obtain ⟨d, hd, hsub, _⟩ := candidates_ok hvs
        obtain ⟨d0, hd0, hsub0, _⟩ := hinv.dom x d hd
        rw [pureVars_get? hok.wf.names] at hd0
        rw [hd0]
        exact hsub.trans hsub0
      · intro x
        cases hd : m.domain? x with
        | none => simp
        | some d => exact hok.wf.doms x d hd

/-! ### A case -/

/-- Four variables with domains of different sizes, an all-different constraint over two of them and sums over others. -/
def polModel : Model where
  vars := [("a", ⟨some [1, 2], none⟩), ("b", ⟨some [1, 2, 3], none⟩), ("c", ⟨some [2], none⟩), ("d", ⟨some [3, 1], none⟩)]
  constraints := [⟨0, .expr (.bin .gt (.bin .add (.var "a") (.var "b")) (.const 3))⟩, ⟨1, .allDiff ["b", "d"]⟩,
    ⟨2, .expr (.bin .ge (.bin .add (.var "b") (.var "c")) (.const 3))⟩]
  solvable := true

def polArgs (p : Policy) : SolveArgs := { solver := { policy := p } }

theorem polOk (p : Policy) : SolveOk (polArgs p) polModel exHeap := by
  refine ⟨fun l => .refl _, ⟨by decide, ?_⟩, ?_, ?_⟩
  · intro x d hx
    simp only [Model.domain?, polModel, Dict.get?] at hx
    repeat' split at hx
    all_goals first | (simp at hx; subst hx; decide) | simp at hx
  · intro c hc c' hc' h
    simp [polModel, polArgs] at hc hc'
    rcases hc with rfl | rfl | rfl <;> rcases hc' with rfl | rfl | rfl <;> simp_all
  · intro c _ e f _ hf
    simp [exHeap] at hf

/-- What each policy does here: the variables of the first two solutions. -/
example : ((solveRun (polArgs .ordered) polModel passive 40 exHeap).1.take 2).map Dict.keys = [["a", "b", "c", "d"], ["a", "b", "c", "d"]] := by decide
example : ((solveRun (polArgs .reversed) polModel passive 40 exHeap).1.take 1).map Dict.keys = [["d", "c", "b", "a"]] := by decide
example : ((solveRun (polArgs .groups) polModel passive 40 exHeap).1.take 1).map Dict.keys = [["c", "a", "d", "b"]] := by decide
example : ((solveRun (polArgs .minBound) polModel passive 40 exHeap).1.take 1).map Dict.keys = [["c", "a", "d", "b"]] := by decide
example : ((solveRun (polArgs .maxBound) polModel passive 40 exHeap).1.take 1).map Dict.keys = [["b", "a", "d", "c"]] := by decide
example : ((solveRun (polArgs .minConstraint) polModel passive 40 exHeap).1.take 1).map Dict.keys = [["d", "a", "c", "b"]] := by decide
example : ((solveRun (polArgs .maxConstraint) polModel passive 40 exHeap).1.take 1).map Dict.keys = [["b", "a", "c", "d"]] := by decide

/-- The hypotheses of the theorem are met. -/
example (p : Policy) : ∃ names, PolicyOrder p id polModel polModel.constraints names ∧
    ∀ σ ∈ (solveRun (polArgs p) polModel passive 40 exHeap).1, σ.keys = names := by
  obtain ⟨names, h1, h2, _⟩ := C45_order (polOk p) 40 (by cases p <;> decide)
  exact ⟨names, h1, h2⟩

end Satisfy.Props
