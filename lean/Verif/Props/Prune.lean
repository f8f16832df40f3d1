import Verif.Props.Order
import Verif.Lemmas.Stack
/-! C50, C51: the partial assignments the search looks at, and the number of its steps. -/

namespace Satisfy.Props

/-- Nothing bound is consistent. -/
theorem consistent_nil (m : Model) (cs : List Constraint) (h : Heap) : Consistent m cs h [] [] := by
  refine ⟨rfl, by simp, ?_, by simp⟩
  intro c _ _ hv hb
  obtain ⟨x, hx⟩ := List.exists_mem_of_ne_nil _ hv
  exact absurd (hb x hx) (by simp)

/-- C50: at every moment, every partial assignment on the stack binds the first variables in the order of the policy to values of their
domains, satisfies every constraint whose variables are all bound, and does not give two variables of an all-different constraint the
same value. Entries further up bind more variables, so the stack is never higher than the number of variables. -/
theorem C50_pruned {a : SolveArgs} {m : Model} {h : Heap} (hok : SolveOk a m h) (n : Nat)
    (hne : (solveRun a m passive n h).2.1.search.stack ≠ []) :
    ∃ names, PolicyOrder a.solver.policy a.shuffle m (m.constraints ++ a.adds) names ∧
      (∀ p ∈ (solveRun a m passive n h).2.1.search.stack, p.1 ≠ [] ∧ ∃ pre, names = pre ++ p.1 ∧
        Consistent m (m.constraints ++ a.adds) (solveRun a m passive n h).2.2 pre p.2) ∧
      (solveRun a m passive n h).2.1.search.stack.Pairwise (fun p q => q.2 <+: p.2 ∧ q.2.length < p.2.length) ∧
      (solveRun a m passive n h).2.1.search.stack.length ≤ names.length := by
  rw [run_heap]
  cases startCase (a := a) m h hok.shuffle with
  | idle h1 _ => rw [solveRun_idle (ph := .finished) trivial h1] at hne; exact absurd rfl hne
  | fail e h1 _ _ => rw [solveRun_idle (ph := .raised e) trivial h1] at hne; exact absurd rfl hne
  | go H info _ hset hst hnn hp =>
    obtain ⟨hH, hinv, _⟩ := setup_spec hok.ids hset
    have hfn : ∀ c ∈ m.constraints ++ a.adds, FnOk H c := fun c hc => by rw [hH]; exact compileAll_fnOk _ hok.ids hok.fns c hc
    have hnd := hp.nodup_iff.2 (pureVars_nodup hok.wf.names)
    rw [← hH] at hinv
    clear hne
    rw [solveRun_eq, hst]
    simp only
    have hrun := sInv_run (C := Consistent m (m.constraints ++ a.adds) H) (names := orderVars a.solver.policy a.shuffle m info)
      (cfg := a.cfg) (cand := candidates info) (act := passive) (J := fun s => s = H) hnd (fun pre σ hc => hc.keys)
      (by rintro s σ s' rfl hs; simp [passive] at hs; exact hs.symm)
      (by
        rintro s rfl pre x rest σ vs he hc hvs v hv
        refine (candidates_consistent hok.wf.names hinv hfn hc ?_ hvs v).1 hv
        intro hm
        rw [he] at hnd
        exact (List.nodup_append.1 hnd).2.2 x hm x (by simp) rfl) n
      (.first (orderVars a.solver.policy a.shuffle m info) (a.clock 0)) H
      (sInv_first (consistent_nil m _ H) hnn (a.clock 0)) rfl
    generalize sysRun a.cfg (candidates info) passive n (.first (orderVars a.solver.policy a.shuffle m info) (a.clock 0)) H = r at hrun ⊢
    have hpair : r.2.1.search.stack.Pairwise (fun p q => q.2 <+: p.2 ∧ q.2.length < p.2.length) := by
      refine hrun.chain.imp ?_
      rintro p q ⟨_, ρ, hρ, he⟩
      rw [he]
      refine ⟨List.prefix_append _ _, ?_⟩
      rw [List.length_append]
      have := List.length_pos_iff.2 hρ
      omega
    refine ⟨orderVars a.solver.policy a.shuffle m info, policyOrder hok.wf.names hinv (setup_key hset) _ _, hrun.ent, hpair, ?_⟩
    -- the number of bound variables grows from entry to entry and is less than the number of variables
    have hlt : ∀ p ∈ r.2.1.search.stack, p.2.length < (orderVars a.solver.policy a.shuffle m info).length := by
      intro p hp
      obtain ⟨h1, pre, h2, h3⟩ := hrun.ent p hp
      have hk := congrArg List.length h3.keys
      simp only [Dict.keys, List.length_map] at hk
      rw [h2, List.length_append]
      have := List.length_pos_iff.2 h1
      omega
    have hmap : ((r.2.1.search.stack.map (fun p => p.2.length)).Nodup) := by
      rw [List.Nodup, List.pairwise_map]
      exact hpair.imp (fun h => by omega)
    have hsub : ∀ k ∈ r.2.1.search.stack.map (fun p => p.2.length), k ∈ List.range (orderVars a.solver.policy a.shuffle m info).length := by
      intro k hk
      obtain ⟨p, hp, rfl⟩ := List.mem_map.1 hk
      exact List.mem_range.2 (hlt p hp)
    have := (List.subperm_of_subset hmap hsub).length_le
    simpa using this

/-- The partial assignments that have to be looked at: `L` lists, each once, the consistent assignments to the first one, two, …
variables. -/
def Visited (m : Model) (cs : List Constraint) (h : Heap) (names : List Name) (L : List Subst) : Prop :=
  L.Nodup ∧ ∀ σ, σ ∈ L ↔ ∃ pre, pre ≠ [] ∧ pre <+: names ∧ Consistent m cs h pre σ

/-- C51: an iteration that ends by itself takes exactly two steps (passes through the loop, or resumptions after a solution) for each
consistent partial assignment, and two more. No partial assignment is looked at twice. -/
theorem C51_exact {a : SolveArgs} {m : Model} {h : Heap} (hok : SolveOk a m h) (hsol : m.solvable = true)
    (hvar : ∃ x, (m.domain? x).isSome) (n : Nat)
    (hend : (solveRun a m passive n h).2.1.phase = .finished) (hint : (solveRun a m passive n h).2.1.interrupt = none) :
    ∃ names L, PolicyOrder a.solver.policy a.shuffle m (m.constraints ++ a.adds) names ∧
      Visited m (m.constraints ++ a.adds) (solveRun a m passive n h).2.2 names L ∧
      ∀ k, (solveRun a m passive k h).2.1.phase.terminal ↔ 2 * L.length + 2 ≤ k := by
  rw [run_heap]
  cases startCase (a := a) m h hok.shuffle with
  | idle _ h2 =>
    rcases h2 with h2 | h2
    · rw [h2] at hsol; cases hsol
    · obtain ⟨x, hx⟩ := hvar
      rw [← pureVars_get? hok.wf.names] at hx
      obtain ⟨v, hv⟩ := Option.isSome_iff_exists.1 hx
      have := Dict.mem_keys_of_get? hv
      rw [h2] at this; simp at this
  | fail e h1 _ _ => rw [solveRun_idle (ph := .raised e) trivial h1] at hend; simp [Gen.idle] at hend
  | go H info _ hset hst hnn hp =>
    obtain ⟨hH, hinv, _⟩ := setup_spec hok.ids hset
    have hfn : ∀ c ∈ m.constraints ++ a.adds, FnOk H c := fun c hc => by rw [hH]; exact compileAll_fnOk _ hok.ids hok.fns c hc
    have hnd := hp.nodup_iff.2 (pureVars_nodup hok.wf.names)
    rw [← hH] at hinv
    have hst' : (startSolve a m h).1 = H := by rw [hst]
    simp only [solveRun_eq, hst] at hend hint ⊢
    have hall : ∀ s' : Heap, (dfs (candidates info) passive (orderVars a.solver.policy a.shuffle m info) [] H).2 = .ok s' → s' = H :=
      fun s' h' => dfs_state (cand := candidates info) (fun σ => rfl) _ [] s' h'
    -- the recursive search ends without exception
    have hdfs : (dfs (candidates info) passive (orderVars a.solver.policy a.shuffle m info) [] H).2 = .ok H := by
      obtain ⟨N, hN, he⟩ := (run_first a.cfg (candidates info) passive _ hnn hnd (a.clock 0) H).1
      have hstab : sysRun a.cfg (candidates info) passive n (Gen.first (orderVars a.solver.policy a.shuffle m info) (a.clock 0)) H =
          sysRun a.cfg (candidates info) passive N (Gen.first (orderVars a.solver.policy a.shuffle m info) (a.clock 0)) H := by
        rcases Nat.le_total n N with hl | hl
        · exact (sysRun_stable a.cfg _ _ hl _ _ (by rw [hend]; trivial)).symm
        · exact sysRun_stable a.cfg _ _ hl _ _ hN
      rw [hstab] at hend hint
      cases he with
      | timeout _ _ h3 => rw [h3] at hint; cases hint
      | limit _ _ _ h3 => rw [h3] at hint; cases hint
      | natural h1 _ h3 h4 _ =>
        cases hr : (dfs (candidates info) passive (orderVars a.solver.policy a.shuffle m info) [] H).2 with
        | error e => rw [h4 e (by rw [hr]; rfl)] at hend; cases hend
        | ok s' => rw [hall s' hr]
    refine ⟨orderVars a.solver.policy a.shuffle m info, nodes (candidates info H) (orderVars a.solver.policy a.shuffle m info) [],
      policyOrder hok.wf.names hinv (setup_key hset) _ _, ⟨?_, ?_⟩, ?_⟩
    · refine nodes_nodup _ ?_ _ [] hnd (by simp)
      intro x σ vs hvs
      obtain ⟨d, hd, hsub, _⟩ := candidates_ok hvs
      obtain ⟨d0, hd0, hsub0, _⟩ := hinv.dom x d hd
      rw [pureVars_get? hok.wf.names] at hd0
      exact (hok.wf.doms x d0 hd0).sublist (hsub.trans hsub0)
    · intro σ
      constructor
      · intro hσ
        obtain ⟨q, hq, hpre, hc⟩ := nodes_sound hok.wf.names hinv hfn _ [] [] hnd (consistent_nil m _ H) σ hσ
        exact ⟨q, hq, hpre, hc⟩
      · rintro ⟨q, hq, hpre, hc⟩
        have := nodes_complete hok.wf.names hinv hfn _ [] [] hnd (consistent_nil m _ H) hdfs q σ (by
          intro he
          have := hc.keys
          rw [he] at this
          exact hq this.symm) hpre hc
        exact this
    · obtain ⟨h1, h2⟩ := steps_first a.cfg (cand := candidates info) (act := passive) (s := H) (fun σ => rfl)
        (orderVars a.solver.policy a.shuffle m info) hnn hnd (a.clock 0)
      intro k
      constructor
      · intro hk
        refine h2 hdfs k hk ?_
        have hfin : (sysRun a.cfg (candidates info) passive n (Gen.first (orderVars a.solver.policy a.shuffle m info) (a.clock 0)) H).2.1.phase.terminal := by
          rw [hend]; trivial
        rcases Nat.le_total n k with hl | hl
        · rw [sysRun_stable a.cfg _ _ hl _ _ hfin]; exact hint
        · rw [← sysRun_stable a.cfg _ _ hl _ _ hk]; exact hint
      · intro hk
        rw [sysRun_stable a.cfg _ _ hk _ _ h1]; exact h1

/-- C51: whatever the limits, the clock and the exceptions, the iteration has ended after two steps for each consistent partial
assignment and two more. `L` is any list of all of them. -/
theorem C51_bound {a : SolveArgs} {m : Model} {h : Heap} (hok : SolveOk a m h) (L : List Subst)
    (hL : ∀ names, PolicyOrder a.solver.policy a.shuffle m (m.constraints ++ a.adds) names → ∀ pre, pre ≠ [] → pre <+: names →
      ∀ σ, Consistent m (m.constraints ++ a.adds) (solveRun a m passive 0 h).2.2 pre σ → σ ∈ L) :
    (solveRun a m passive (2 * L.length + 2) h).2.1.phase.terminal := by
  rw [run_heap] at hL
  cases startCase (a := a) m h hok.shuffle with
  | idle h1 _ => rw [solveRun_idle (ph := .finished) trivial h1]; trivial
  | fail e h1 _ _ => rw [solveRun_idle (ph := .raised e) trivial h1]; trivial
  | go H info _ hset hst hnn hp =>
    obtain ⟨hH, hinv, _⟩ := setup_spec hok.ids hset
    have hfn : ∀ c ∈ m.constraints ++ a.adds, FnOk H c := fun c hc => by rw [hH]; exact compileAll_fnOk _ hok.ids hok.fns c hc
    have hnd := hp.nodup_iff.2 (pureVars_nodup hok.wf.names)
    rw [← hH] at hinv
    rw [solveRun_eq, hst]
    rw [hst] at hL
    simp only at hL ⊢
    have h1 := (steps_first a.cfg (cand := candidates info) (act := passive) (s := H) (fun σ => rfl)
        (orderVars a.solver.policy a.shuffle m info) hnn hnd (a.clock 0)).1
    have hnodup : (nodes (candidates info H) (orderVars a.solver.policy a.shuffle m info) []).Nodup := by
      refine nodes_nodup _ ?_ _ [] hnd (by simp)
      intro x σ vs hvs
      obtain ⟨d, hd, hsub, _⟩ := candidates_ok hvs
      obtain ⟨d0, hd0, hsub0, _⟩ := hinv.dom x d hd
      rw [pureVars_get? hok.wf.names] at hd0
      exact (hok.wf.doms x d0 hd0).sublist (hsub.trans hsub0)
    have hsub : ∀ σ ∈ nodes (candidates info H) (orderVars a.solver.policy a.shuffle m info) [], σ ∈ L := by
      intro σ hσ
      obtain ⟨q, hq, hpre, hc⟩ := nodes_sound hok.wf.names hinv hfn _ [] [] hnd (consistent_nil m _ H) σ hσ
      exact hL _ (policyOrder hok.wf.names hinv (setup_key hset) _ _) q hq hpre σ hc
    have hlen := (List.subperm_of_subset hnodup hsub).length_le
    rw [sysRun_stable a.cfg _ _ (by omega) _ _ h1]; exact h1

/-! The running example: `x + y = 4`, different, three values each. With `y` first, the consistent partial assignments are
`y = 3`, `y = 3, x = 1`, `y = 2`, `y = 1`, `y = 1, x = 3`. (Of the nine pairs, seven are never bound.) So there are 2 * 5 + 2 = 12 steps. -/

example : (List.range 15).map (fun n => (solveRun exArgs exModel passive n exHeap).2.1.search.stack.map (·.2)) =
    [[[]], [[("y", 3)], []], [[("y", 3)], []], [[("y", 3)], []], [[]], [[("y", 2)], []], [[]], [[("y", 1)], []], [[("y", 1)], []],
      [[("y", 1)], []], [[]], [], [], [], []] := by decide

example : ¬ (solveRun exArgs exModel passive 11 exHeap).2.1.phase.terminal := by
  have : (solveRun exArgs exModel passive 11 exHeap).2.1.phase = .running := by rfl
  rw [this]; exact id

/-- The hypotheses of C50 are met. -/
example : ∃ names, PolicyOrder .groups id exModel exModel.constraints names ∧ names.length ≥ 2 := by
  obtain ⟨names, h1, _, _, h4⟩ := C50_pruned exOk 8 (by decide)
  refine ⟨names, by simpa [exArgs] using h1, le_trans ?_ h4⟩
  decide

/-- The hypotheses of C51 are met, and the number of partial assignments is 5. -/
example : ∃ names L, PolicyOrder exArgs.solver.policy exArgs.shuffle exModel exModel.constraints names ∧
    Visited exModel exModel.constraints (solveRun exArgs exModel passive 12 exHeap).2.2 names L ∧ L.length = 5 := by
  obtain ⟨names, L, h1, h2, h3⟩ := C51_exact exOk rfl ⟨"x", rfl⟩ 12 (by rfl) (by rfl)
  refine ⟨names, L, by simpa [exArgs] using h1, by simpa [exArgs] using h2, ?_⟩
  have h12 := (h3 12).1 (by
    have : (solveRun exArgs exModel passive 12 exHeap).2.1.phase = .finished := by rfl
    rw [this]; trivial)
  have h11 : ¬ (2 * L.length + 2 ≤ 11) := fun hh => by
    have := (h3 11).2 hh
    have h : (solveRun exArgs exModel passive 11 exHeap).2.1.phase = .running := by rfl
    rw [h] at this; exact this
  omega

end Satisfy.Props
