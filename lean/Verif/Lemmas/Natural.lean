import Verif.Lemmas.Solve
/-! Iterations that end by themselves, for any consumer. -/

namespace Satisfy

theorem run_natural {a : SolveArgs} {m : Model} {h : Heap} (hs : ∀ l, (a.shuffle l).Perm l) (hn : m.vars.keys.Nodup)
    (hsol : m.solvable = true) (hvar : ∃ x, (m.domain? x).isSome) (act : Heap → Subst → Res Heap) {n : Nat}
    (hend : (solveRun a m act n h).2.1.phase = .finished) (hint : (solveRun a m act n h).2.1.interrupt = none) :
    ∃ H info, setup a.solver.compile m a.adds h = (H, .ok info) ∧
      startSolve a m h = (H, info, Gen.first (orderVars a.solver.policy a.shuffle m info) (a.clock 0)) ∧
      (orderVars a.solver.policy a.shuffle m info).Perm m.pureVars.keys ∧
      (solveRun a m act n h).1 = (dfs (candidates info) act (orderVars a.solver.policy a.shuffle m info) [] H).1 ∧
      (dfs (candidates info) act (orderVars a.solver.policy a.shuffle m info) [] H).2 = .ok (solveRun a m act n h).2.2 := by
  cases startCase (a := a) m h hs with
  | idle _ h2 =>
    rcases h2 with h2 | h2
    · rw [h2] at hsol; cases hsol
    · obtain ⟨x, hx⟩ := hvar
      rw [← pureVars_get? hn] at hx
      obtain ⟨v, hv⟩ := Option.isSome_iff_exists.1 hx
      have := Dict.mem_keys_of_get? hv
      rw [h2] at this; simp at this
  | fail e h1 _ _ => rw [solveRun_idle (ph := .raised e) trivial h1] at hend; simp [Gen.idle] at hend
  | go H info _ hset hst hne hp =>
    have hnd := hp.nodup_iff.2 (pureVars_nodup hn)
    refine ⟨H, info, hset, hst, hp, ?_⟩
    rw [solveRun_eq, hst] at hend hint ⊢
    simp only at hend hint ⊢
    obtain ⟨N, hN, he⟩ := (run_first a.cfg (candidates info) act _ hne hnd (a.clock 0) H).1
    have hstab : sysRun a.cfg (candidates info) act n (Gen.first (orderVars a.solver.policy a.shuffle m info) (a.clock 0)) H =
        sysRun a.cfg (candidates info) act N (Gen.first (orderVars a.solver.policy a.shuffle m info) (a.clock 0)) H := by
      rcases Nat.le_total n N with hl | hl
      · exact (sysRun_stable a.cfg _ _ hl _ _ (by rw [hend]; trivial)).symm
      · exact sysRun_stable a.cfg _ _ hl _ _ hN
    rw [hstab] at hend hint ⊢
    cases he with
    | timeout _ _ h3 => rw [h3] at hint; cases hint
    | limit _ _ _ h3 => rw [h3] at hint; cases hint
    | natural h1 _ h3 h4 _ =>
      cases hr : (dfs (candidates info) act (orderVars a.solver.policy a.shuffle m info) [] H).2 with
      | error e => rw [h4 e (by rw [hr]; rfl)] at hend; cases hend
      | ok s' => exact ⟨h1, by rw [(h3 s' (by rw [hr]; rfl)).2]⟩

/-- **Completeness of paths** when only the constraints in `R` matter. -/
theorem path_accepts {m : Model} {H : Heap} {cs : List Constraint} {info : Info} (hm : m.vars.keys.Nodup)
    (hi : SetupInv m H cs info) {R : Constraint → Prop} (hfn : ∀ c ∈ cs, FnOk H c) {names : List Name} (hp : names.Perm m.pureVars.keys)
    {τ : Subst} (ha : Assignment m τ) (hs : ∀ c ∈ cs, (c.isAD = true ∨ c.vars.length = 1 ∨ R c) → Holds H c τ) :
    ∃ τ', Path (Accepts info H R) names [] τ' ∧ SameDict τ' τ := by
  have hn : names.Nodup := hp.nodup_iff.2 (pureVars_nodup hm)
  have hmem : ∀ x, x ∈ names ↔ (m.domain? x).isSome := by
    intro x
    rw [hp.mem_iff, ← pureVars_get? hm]
    constructor
    · intro h; obtain ⟨v, hv⟩ := Dict.get?_isSome_of_mem_keys h; simp [hv]
    · intro h; obtain ⟨v, hv⟩ := Option.isSome_iff_exists.1 h; exact Dict.mem_keys_of_get? hv
  obtain ⟨τ', hpath, hsame⟩ := path_of_total (P := Accepts info H R)
    (xs := names) τ [] hn (by simp)
    (by intro x hx
        have : x ∈ τ.keys := (ha.keys x).2 ((hmem x).1 hx)
        exact Dict.get?_isSome_of_mem_keys this)
    (by
      intro x σ1 v hsub hx hfresh hv
      have hsub : ∀ y w, (σ1.set x v).get? y = some w → τ.get? y = some w := by
        intro y w hy
        rcases hsub y w hy with h | h
        · simp at h
        · exact h.2
      have hxk : x ∈ info.vars.keys := by rw [hi.keys]; exact hp.mem_iff.1 hx
      obtain ⟨d, hd⟩ := Dict.get?_isSome_of_mem_keys hxk
      refine ⟨⟨d, hd, ?_⟩, ?_, ?_⟩
      · obtain ⟨d0, hd0, _, hmd⟩ := hi.dom x d hd
        refine (hmd v).2 ⟨?_, fun c hc had hcv => ?_⟩
        · obtain ⟨d1, hd1, hvd⟩ := ha.dom x v hv
          rw [pureVars_get? hm, hd1] at hd0
          cases hd0; exact hvd
        · refine (holds_congr (hfn c hc) ?_).1 (hs c hc (.inr (.inl (by simp [hcv]))))
          intro y hy
          rw [hcv] at hy; simp at hy; subst hy
          simp [Dict.get?, hv]
      · intro y hy hyv
        obtain ⟨hne, c, hc, had, hxc, hyc⟩ := (hi.ad x y).1 hy
        have := (holds_allDiff had).1 (hs c hc (.inl had))
        exact this.2 x hxc y hyc hne (by rw [hv, hsub y v hyv])
      · intro c hc hR
        rw [hi.cons] at hc
        have hc' : c ∈ cs := (List.mem_filter.1 hc).1
        by_cases hb : ∀ y ∈ c.vars, (σ1.set x v).get? y ≠ none
        · refine unsat_of_holds ((holds_congr (hfn c hc') ?_).1 (hs c hc' (.inr (.inr hR))))
          intro y hy
          obtain ⟨w, hw⟩ := Option.ne_none_iff_exists'.1 (hb y hy)
          rw [hw, hsub y w hw]
        · simp only [not_forall, not_not] at hb
          obtain ⟨y, hy, hnone⟩ := hb
          exact unsat_of_missing hy hnone)
  refine ⟨τ', hpath, fun x => ?_⟩
  by_cases hx : x ∈ names
  · exact hsame x hx
  · rw [hpath.old x hx]
    have : x ∉ τ.keys := by rw [ha.keys x, ← hmem x]; exact hx
    rw [(Dict.get?_eq_none_iff _ _).2 this]; rfl

end Satisfy
