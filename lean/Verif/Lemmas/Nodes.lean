import Verif.Lemmas.Solve
import Verif.SpecSearch
/-! The partial assignments the search looks at, and the number of steps. -/

namespace Satisfy

theorem isAD_eq (c : Constraint) : c.isAD = c.kind.isAllDiff := by
  unfold Constraint.isAD CKind.isAllDiff; cases c.kind <;> rfl

/-! ## One more variable -/

/-- The candidate values of the next variable are exactly the values that extend the partial assignment consistently. -/
theorem candidates_consistent {m : Model} {H : Heap} {cs : List Constraint} {info : Info} (hm : m.vars.keys.Nodup)
    (hi : SetupInv m H cs info) (hfn : ∀ c ∈ cs, FnOk H c) {pre : List Name} {σ : Subst} (hσ : Consistent m cs H pre σ)
    {x : Name} (hx : x ∉ pre) {vs : List Int} (hc : candidates info H x σ = .ok vs) (v : Int) :
    v ∈ vs ↔ Consistent m cs H (pre ++ [x]) (σ.set x v) := by
  have hnone : σ.get? x = none := (Dict.get?_eq_none_iff _ _).2 (by rw [hσ.keys]; exact hx)
  obtain ⟨d, hd, _, hmem⟩ := candidates_ok hc
  obtain ⟨d0, hd0, hsub, hmd⟩ := hi.dom x d hd
  rw [pureVars_get? hm] at hd0
  rw [hmem v, acceptable_true]
  have hkeys : (σ.set x v).keys = pre ++ [x] := by
    rw [Dict.set_of_none _ _ _ hnone, Dict.keys_append, hσ.keys]; rfl
  have hbd : ∀ y, y ∈ pre ++ [x] ↔ (σ.set x v).get? y ≠ none := by
    intro y
    rw [← hkeys, ne_eq, Dict.get?_eq_none_iff, not_not]
  constructor
  · rintro ⟨hvd, hne, hcons⟩
    obtain ⟨hv0, hone⟩ := (hmd v).1 hvd
    refine ⟨hkeys, ?_, ?_, ?_⟩
    · intro y w hy
      rw [Dict.get?_set] at hy
      split at hy
      · rename_i hxy; subst hxy; cases hy; exact ⟨d0, hd0, hv0⟩
      · exact hσ.dom y w hy
    · intro c hcc had hcv hb
      by_cases hxc : x ∈ c.vars
      · by_cases hlen : c.vars.length = 1
        · obtain ⟨z, hz⟩ := List.length_eq_one_iff.1 hlen
          have hzx : z = x := by rw [hz] at hxc; exact (List.mem_singleton.1 hxc).symm
          subst hzx
          refine (holds_congr (hfn c hcc) ?_).1 (hone c hcc (by rw [isAD_eq, had]) hz)
          intro y hy
          rw [hz] at hy; simp at hy; subst hy
          simp [Dict.get?]
        · have hin : c ∈ info.cons x := by
            rw [hi.cons]; simp [isAD_eq, hcc, had, hlen, hxc]
          exact holds_of_unsat (fun y hy => (hbd y).1 (hb y hy)) (hcons c hin)
      · have hb' : ∀ y ∈ c.vars, y ∈ pre := by
          intro y hy
          rcases List.mem_append.1 (hb y hy) with h | h
          · exact h
          · simp at h; subst h; exact absurd hy hxc
        refine (holds_congr (hfn c hcc) ?_).1 (hσ.con c hcc had hcv hb')
        intro y hy
        rw [Dict.get?_set_ne]
        rintro rfl; exact hxc hy
    · have key : ∀ c ∈ cs, c.kind.isAllDiff = true → ∀ y ∈ c.vars, x ∈ c.vars → y ∈ pre → (σ.set x v).get? y ≠ some v := by
        intro c hcc had y hy hxc hyp
        exact hne y ((hi.ad x y).2 ⟨by rintro rfl; exact hx hyp, c, hcc, by rw [isAD_eq, had], hxc, hy⟩)
      intro c hcc had y hy z hz hyp hzp hyz
      rcases List.mem_append.1 hyp with h1 | h1 <;> rcases List.mem_append.1 hzp with h2 | h2
      · rw [Dict.get?_set_ne _ _ (by rintro rfl; exact hx h1), Dict.get?_set_ne _ _ (by rintro rfl; exact hx h2)]
        exact hσ.diff c hcc had y hy z hz h1 h2 hyz
      · simp only [List.mem_singleton] at h2; subst h2
        rw [Dict.get?_set_self]; exact key c hcc had y hy hz h1
      · simp only [List.mem_singleton] at h1; subst h1
        rw [Dict.get?_set_self]; exact fun h => key c hcc had z hz hy h2 h.symm
      · simp only [List.mem_singleton] at h1 h2; subst h1; exact absurd h2.symm hyz
  · intro hk
    have hvx : (σ.set x v).get? x = some v := Dict.get?_set_self _ _ _
    refine ⟨(hmd v).2 ⟨?_, ?_⟩, ?_, ?_⟩
    · obtain ⟨d1, hd1, hvd⟩ := hk.dom x v hvx
      rw [hd0] at hd1; cases hd1; exact hvd
    · intro c hcc had hcv
      rw [isAD_eq] at had
      refine (holds_congr (hfn c hcc) ?_).1 (hk.con c hcc had (by rw [hcv]; simp) (by rw [hcv]; simp))
      intro y hy
      rw [hcv] at hy; simp at hy; subst hy
      simp [Dict.get?]
    · intro y hy hyv
      obtain ⟨hne, c, hcc, had, hxc, hyc⟩ := (hi.ad x y).1 hy
      rw [isAD_eq] at had
      exact hk.diff c hcc had x hxc y hyc (by simp) ((hbd y).2 (by rw [hyv]; simp)) hne (by rw [hvx, hyv])
    · intro c hcc
      rw [hi.cons] at hcc
      have hcc' := List.mem_filter.1 hcc
      simp only [isAD_eq, Bool.and_eq_true, Bool.not_eq_true', decide_eq_true_eq] at hcc'
      by_cases hb : ∀ y ∈ c.vars, (σ.set x v).get? y ≠ none
      · exact unsat_of_holds (hk.con c hcc'.1 hcc'.2.1.1 (by intro h; rw [h] at hcc'; simp at hcc') (fun y hy => (hbd y).2 (hb y hy)))
      · simp only [not_forall, not_not] at hb
        obtain ⟨y, hy, hnone⟩ := hb
        exact unsat_of_missing hy hnone

/-! ## The tree of partial assignments -/

/-- All partial assignments below `σ`, in the order in which they are visited. -/
def nodes (c : Name → Subst → Res (List Int)) : List Name → Subst → List Subst
  | [], _ => []
  | x :: xs, σ => match c x σ with
    | .error _ => []
    | .ok vs => vs.flatMap (fun v => σ.set x v :: nodes c xs (σ.set x v))

/-- Number of passes through the loop spent below the stack entry `(xs, σ)`. -/
def passes (c : Name → Subst → Res (List Int)) : List Name → Subst → Nat
  | [], _ => 0
  | x :: xs, σ => match c x σ with
    | .error _ => 1
    | .ok vs => (vs.map (fun v => 1 + passes c xs (σ.set x v))).sum + 1

section
variable {S : Type} {cand : S → Name → Subst → Res (List Int)} {act : S → Subst → Res S} {s : S}

theorem dfsVals_state {f : Int → S → List Subst × Res S} (hf : ∀ v s', (f v s).2 = .ok s' → s' = s) (vs : List Int) :
    ∀ s', (dfsVals f vs s).2 = .ok s' → s' = s := by
  intro s' h; exact (dfsVals_complete vs (fun v _ s' hs' => hf v s' hs') s' h).1

theorem dfs_state (hact : ∀ σ, act s σ = .ok s) (xs : List Name) (σ : Subst) (s' : S) (h : (dfs cand act xs σ s).2 = .ok s') : s' = s :=
  (dfs_complete hact xs σ s' h).1

/-- The loop over the remaining values, with the number of passes. -/
theorem count_vals (hact : ∀ σ, act s σ = .ok s) (x : Name) (xs : List Name) (hx : x ∉ xs)
    (ih : ∀ (y : Name) (ys : List Name), xs = y :: ys → ∀ σ K D, (∀ z ∈ xs, D.get? z = none) →
      ∃ n, bRun cand act n (.run ⟨(xs, σ) :: K, D⟩ s) = ((dfs cand act xs σ s).1, post K D (dfs cand act xs σ s).2) ∧
        n ≤ passes (cand s) xs σ ∧ ((dfs cand act xs σ s).2 = .ok s → n = passes (cand s) xs σ))
    (σ : Subst) (K : List (List Name × Subst)) (D : Dict (List Int)) (hD : ∀ z ∈ x :: xs, D.get? z = none) :
    ∀ (vs : List Int) (b : Search), (b = ⟨(x :: xs, σ) :: K, D.set x vs⟩ ∨ (b = ⟨(x :: xs, σ) :: K, D⟩ ∧ cand s x σ = .ok vs)) →
    ∃ n, bRun cand act n (.run b s) =
      ((dfsVals (fun v s => dfs cand act xs (σ.set x v) s) vs s).1,
        post K D (dfsVals (fun v s => dfs cand act xs (σ.set x v) s) vs s).2) ∧
      n ≤ (vs.map (fun v => 1 + passes (cand s) xs (σ.set x v))).sum + 1 ∧
      ((dfsVals (fun v s => dfs cand act xs (σ.set x v) s) vs s).2 = .ok s →
        n = (vs.map (fun v => 1 + passes (cand s) xs (σ.set x v))).sum + 1) := by
  intro vs
  induction vs with
  | nil =>
    intro b hb
    refine ⟨1, ?_, by simp, fun _ => by simp⟩
    have : Search.step (cand s) b = .silent ⟨K, D⟩ := by
      rcases hb with rfl | ⟨rfl, hc⟩
      · simp only [Search.step, Dict.get?_set_self]
        rw [Dict.erase_set _ _ _ (hD x (by simp))]
      · rw [step_entry (hD x (by simp)), hc]
    simp [bRun, bStep, this, dfsVals, post]
  | cons v vs ihv =>
    intro b hb
    have hstep : Search.step (cand s) b = Search.take ⟨(x :: xs, σ) :: K, D⟩ x xs σ v vs := by
      rcases hb with rfl | ⟨rfl, hc⟩
      · simp only [Search.step, Dict.get?_set_self, Search.take, Dict.set_set]
      · rw [step_entry (hD x (by simp)), hc]
    obtain ⟨n2, h2, h2le, h2eq⟩ := ihv ⟨(x :: xs, σ) :: K, D.set x vs⟩ (.inl rfl)
    rw [dfsVals]
    cases xs with
    | nil =>
      simp only [Search.take] at hstep
      have h1 : bRun cand act 1 (.run b s) = ([σ.set x v], .run ⟨([x], σ) :: K, D.set x vs⟩ s) := by
        simp [bRun, bStep, hstep, hact]
      refine ⟨1 + n2, ?_, ?_, ?_⟩
      · rw [bRun_add, h1, h2]; simp [dfs, hact]
      · simp only [List.map_cons, List.sum_cons, passes] at h2le ⊢; omega
      · simp only [dfs, hact]
        intro hok
        have := h2eq hok
        simp only [List.map_cons, List.sum_cons, passes] at this ⊢; omega
    | cons y ys =>
      simp only [Search.take] at hstep
      have h1 : bRun cand act 1 (.run b s) = ([], .run ⟨(y :: ys, σ.set x v) :: (x :: y :: ys, σ) :: K, D.set x vs⟩ s) := by
        simp [bRun, bStep, hstep]
      have hfresh : ∀ z ∈ y :: ys, (D.set x vs).get? z = none := by
        intro z hz
        rw [Dict.get?_set_ne]
        · exact hD z (List.mem_cons_of_mem _ hz)
        · rintro rfl; exact hx hz
      obtain ⟨n1, h3, h3le, h3eq⟩ := ih y ys rfl (σ.set x v) ((x :: y :: ys, σ) :: K) (D.set x vs) hfresh
      cases hd : dfs cand act (y :: ys) (σ.set x v) s with
      | mk o r =>
        rw [hd] at h3 h3eq
        cases r with
        | error e =>
          refine ⟨1 + n1, by rw [bRun_add, h1, h3]; rfl, ?_, fun h => by simp at h⟩
          simp only [List.map_cons, List.sum_cons]; omega
        | ok s' =>
          have hs' : s' = s := dfs_state (cand := cand) hact (y :: ys) (σ.set x v) s' (by rw [hd])
          subst hs'
          have h3eq := h3eq rfl
          refine ⟨1 + n1 + n2, ?_, ?_, ?_⟩
          · rw [bRun_add, bRun_add, h1, h3]
            have hp : post ((x :: y :: ys, σ) :: K) (D.set x vs) (Except.ok s') = .run ⟨(x :: y :: ys, σ) :: K, D.set x vs⟩ s' := rfl
            simp only [List.nil_append, hp, h2]
          · simp only [List.map_cons, List.sum_cons]; omega
          · intro hok
            have := h2eq hok
            simp only [List.map_cons, List.sum_cons]; omega

/-- **Number of passes** below a stack entry. -/
theorem count_entry (hact : ∀ σ, act s σ = .ok s) (xs : List Name) : ∀ (_ : xs ≠ []) (_ : xs.Nodup) (σ : Subst)
    (K : List (List Name × Subst)) (D : Dict (List Int)), (∀ z ∈ xs, D.get? z = none) →
    ∃ n, bRun cand act n (.run ⟨(xs, σ) :: K, D⟩ s) = ((dfs cand act xs σ s).1, post K D (dfs cand act xs σ s).2) ∧
      n ≤ passes (cand s) xs σ ∧ ((dfs cand act xs σ s).2 = .ok s → n = passes (cand s) xs σ) := by
  induction xs with
  | nil => intro h; exact absurd rfl h
  | cons x xs ih =>
    intro _ hn σ K D hD
    have hx : x ∉ xs := (List.nodup_cons.1 hn).1
    rw [dfs, passes]
    cases hc : cand s x σ with
    | error e =>
      have hstep := step_entry (σ := σ) (K := K) (rest := xs) (hD x (by simp)) (cand s)
      rw [hc] at hstep
      exact ⟨1, by simp [bRun, bStep, hstep, post], le_refl _, fun h => by simp at h⟩
    | ok vs =>
      exact count_vals hact x xs hx (fun y ys he σ K D hD => ih (by rw [he]; simp) (List.nodup_cons.1 hn).2 σ K D hD) σ K D hD vs _
        (.inr ⟨rfl, hc⟩)

/-- Passes and solutions together, in terms of the tree. -/
theorem passes_nodes (hact : ∀ σ, act s σ = .ok s) (xs : List Name) : ∀ σ : Subst,
    (dfs cand act xs σ s).1.length + passes (cand s) xs σ ≤ 2 * (nodes (cand s) xs σ).length + 1 ∧
    ((dfs cand act xs σ s).2 = .ok s →
      (dfs cand act xs σ s).1.length + passes (cand s) xs σ = 2 * (nodes (cand s) xs σ).length + 1) := by
  induction xs with
  | nil => intro σ; simp [dfs, passes, nodes]
  | cons x xs ih =>
    intro σ
    rw [dfs, passes, nodes]
    cases hc : cand s x σ with
    | error e => simp
    | ok vs =>
      simp only
      clear hc
      induction vs with
      | nil => simp [dfsVals]
      | cons v vs ihv =>
        obtain ⟨h1, h1'⟩ := ih (σ.set x v)
        obtain ⟨h2, h2'⟩ := ihv
        rw [dfsVals]
        cases hd : dfs cand act xs (σ.set x v) s with
        | mk o r =>
          rw [hd] at h1 h1'
          cases r with
          | error e =>
            simp only [List.map_cons, List.sum_cons, List.flatMap_cons, List.length_append, List.length_cons]
            refine ⟨?_, fun h => by simp at h⟩
            simp only at h1
            omega
          | ok s' =>
            have hs' : s' = s := dfs_state (cand := cand) hact xs (σ.set x v) s' (by rw [hd])
            subst hs'
            have h1' := h1' rfl
            simp only [List.map_cons, List.sum_cons, List.flatMap_cons, List.length_append, List.length_cons] at h1 h1' ⊢
            refine ⟨by omega, fun h => ?_⟩
            have := h2' h
            omega

end

/-! ## Steps of the generator -/

section
variable {S : Type} (cfg : RunCfg) {cand : S → Name → Subst → Res (List Int)} {act : S → Subst → Res S} {s : S}

theorem bRun_terminal {b : BSt S} (hb : b.terminal) (k : Nat) : bRun cand act k b = ([], b) := by
  induction k with
  | zero => rfl
  | succ k ih => cases b <;> simp_all [bRun, bStep, BSt.terminal]

/-- Where the generator is when the loop without limit and timeout is at `b`. -/
inductive After (b : BSt S) (g : Gen) : Prop
  | cut : g.phase.terminal → g.interrupt ≠ none → After b g
  | run : ¬ b.terminal → g.phase = .running → After b g
  | stop : b.terminal → g.phase.terminal → g.interrupt = none → After b g

theorem after_cut {g : Gen} {b : BSt S} (ht : g.phase.terminal) (hi : g.interrupt ≠ none) (n : Nat) :
    After b (sysRun cfg cand act n g s).2.1 := by
  rw [sysRun_terminal _ _ _ ht]; exact .cut ht hi

/-- `k` passes that hand out `outs` are `k + outs.length` steps. -/
theorem sys_count (hact : ∀ σ, act s σ = .ok s) (k : Nat) : ∀ (g : Gen) (t0 : Int) (outs : List Subst) (b : BSt S),
    bRun cand act k (.run g.search s) = (outs, b) → g.phase = .running → g.interrupt = none → g.timer.start = some t0 →
    After b (sysRun cfg cand act (k + outs.length) g s).2.1 := by
  induction k with
  | zero =>
    intro g t0 outs b h hp hi hst
    simp only [bRun, Prod.mk.injEq] at h
    obtain ⟨rfl, rfl⟩ := h
    exact .run (by simp [BSt.terminal]) hp
  | succ k ih =>
    intro g t0 outs b h hp hi hst
    have hss : sysStep cfg cand act g s = (g.loop cfg (cand s), s) := by simp [sysStep, hp]
    have hsucc : ∀ N, (sysRun cfg cand act (N + 1) g s).2.1 = (sysRun cfg cand act N (g.loop cfg (cand s)) s).2.1 := by
      intro N; rw [sysRun_succ, hss]
    by_cases hne : g.search.stack.isEmpty = true
    · have hd : g.search.step (cand s) = .done := stack_empty_done hne
      simp only [bRun, bStep, hd, bRun_terminal (b := .done s) trivial, Prod.mk.injEq, List.nil_append] at h
      obtain ⟨rfl, rfl⟩ := h
      have hl : g.loop cfg (cand s) = { g with phase := .finished } := by simp [Gen.loop, hne]
      rw [List.length_nil, Nat.add_zero, hsucc, hl, sysRun_terminal _ _ _ (show Phase.terminal .finished from trivial)]
      exact .stop trivial trivial hi
    · have hne : g.search.stack.isEmpty = false := by simpa using hne
      by_cases hto : g.timedOut cfg = true
      · have hl := loop_timeout cfg (c := cand s) hne hto
        rw [Nat.add_right_comm, hsucc, hl]
        exact after_cut cfg (show Phase.terminal .finished from trivial) (by simp) _
      · have hto : g.timedOut cfg = false := by simpa using hto
        obtain ⟨t, hl⟩ := loop_nonempty cfg (c := cand s) hto
        rw [Nat.add_right_comm, hsucc]
        cases hstep : g.search.step (cand s) with
        | done =>
          rw [hstep] at hl
          simp only [bRun, bStep, hstep, bRun_terminal (b := .done s) trivial, Prod.mk.injEq, List.nil_append] at h
          obtain ⟨rfl, rfl⟩ := h
          rw [hl, sysRun_terminal _ _ _ (show Phase.terminal .finished from trivial)]
          exact .stop trivial trivial hi
        | raised e =>
          rw [hstep] at hl
          simp only [bRun, bStep, hstep, bRun_terminal (b := .raised e) trivial, Prod.mk.injEq, List.nil_append] at h
          obtain ⟨rfl, rfl⟩ := h
          rw [hl, sysRun_terminal _ _ _ (show Phase.terminal (.raised e) from trivial)]
          exact .stop trivial trivial hi
        | silent s2 =>
          rw [hstep] at hl
          simp only [bRun, bStep, hstep, List.nil_append, Prod.mk.injEq] at h
          refine ih (g.loop cfg (cand s)) t0 outs b ?_ (by rw [hl]; exact hp) (by rw [hl]; exact hi) (by rw [hl]; exact hst)
          rw [hl]; exact Prod.ext h.1 h.2
        | yield σ s2 =>
          rw [hstep] at hl
          have hstop : g.timer.doStop (cfg.clock t) = .ok ⟨g.timer.elapsed + (cfg.clock t - t0), none, g.timer.count + 1⟩ := by
            simp [Timer.doStop, hst]
          rw [hstop] at hl
          simp only at hl
          simp only [bRun, bStep, hstep, hact, Prod.mk.injEq, List.singleton_append] at h
          obtain ⟨rfl, rfl⟩ := h
          have hph : (g.loop cfg (cand s)).phase = .suspended σ := by rw [hl]
          have hs2 : sysStep cfg cand act (g.loop cfg (cand s)) s = ((g.loop cfg (cand s)).resume cfg, s) := by
            simp [sysStep, hph, hact]
          have hts : (g.loop cfg (cand s)).timer.start = none := by rw [hl]
          have hnum : (g.loop cfg (cand s)).num = g.num + 1 := by rw [hl]
          rw [List.length_cons, ← Nat.add_assoc, sysRun_succ, hs2]
          by_cases hr : ∃ l, cfg.limit = some l ∧ ((g.num + 1 : Nat) : Int) ≥ l
          · obtain ⟨l, hl1, hl2⟩ := hr
            have hres : (g.loop cfg (cand s)).resume cfg =
                { g.loop cfg (cand s) with interrupt := some .limit, phase := .finished } := by
              simp only [Gen.resume, hl1, hnum, hl2, decide_true, if_true, Timer.abort, Timer.running, hts,
                Option.isSome_none, Bool.false_eq_true, if_false, Gen.withTimer]
            rw [hres]
            exact after_cut cfg (show Phase.terminal .finished from trivial) (by simp) _
          · have hres := resume_go cfg (g := g.loop cfg (cand s)) (by
              intro l hll
              rw [hnum]
              by_contra hc
              exact hr ⟨l, hll, by simpa using hc⟩) hts
            refine ih ((g.loop cfg (cand s)).resume cfg) (cfg.clock (g.loop cfg (cand s)).tick) _ _ ?_ (by rw [hres]) (by rw [hres, hl]; exact hi) (by rw [hres])
            rw [hres, hl]

/-- **Number of steps** of an iteration, in terms of the tree of partial assignments. -/
theorem steps_first (hact : ∀ σ, act s σ = .ok s) (names : List Name) (hne : names ≠ []) (hn : names.Nodup) (t : Int) :
    (sysRun cfg cand act (2 * (nodes (cand s) names []).length + 2) (.first names t) s).2.1.phase.terminal ∧
    ((dfs cand act names [] s).2 = .ok s → ∀ n, (sysRun cfg cand act n (.first names t) s).2.1.phase.terminal →
      (sysRun cfg cand act n (.first names t) s).2.1.interrupt = none → 2 * (nodes (cand s) names []).length + 2 ≤ n) := by
  obtain ⟨k, hk, hle, heq⟩ := count_entry (cand := cand) (act := act) hact names hne hn [] [] [] (by simp)
  obtain ⟨hpn, hpn'⟩ := passes_nodes (cand := cand) hact names []
  have hmono : ∀ {n N : Nat}, n ≤ N → (sysRun cfg cand act n (.first names t) s).2.1.phase.terminal →
      (sysRun cfg cand act N (.first names t) s).2.1.phase.terminal := by
    intro n N h ht; rw [sysRun_stable cfg cand act h _ _ ht]; exact ht
  cases hd : (dfs cand act names [] s).2 with
  | error e =>
    rw [hd] at hk
    refine ⟨?_, fun h => by simp at h⟩
    have := sys_count cfg hact k (.first names t) t _ _ hk rfl rfl rfl
    refine hmono (n := k + (dfs cand act names [] s).1.length) (by omega) ?_
    cases this with
    | cut h _ => exact h
    | run h _ => exact absurd trivial h
    | stop _ h _ => exact h
  | ok s' =>
    have hs' : s' = s := dfs_state (cand := cand) hact names [] s' hd
    subst hs'
    rw [hd] at hk
    have hk' := heq hd
    have hpn' := hpn' hd
    have h1 : bRun cand act (k + 1) (.run ⟨[(names, [])], []⟩ s') = ((dfs cand act names [] s').1, .done s') := by
      rw [bRun_add, hk]
      simp [bRun, post, bStep, Search.step]
    constructor
    · have := sys_count cfg hact (k + 1) (.first names t) t _ _ h1 rfl rfl rfl
      refine hmono (n := k + 1 + (dfs cand act names [] s').1.length) (by omega) ?_
      cases this with
      | cut h _ => exact h
      | run h _ => exact absurd trivial h
      | stop _ h _ => exact h
    · intro _ n ht hi
      by_contra hlt
      have hle2 : n ≤ k + (dfs cand act names [] s').1.length := by omega
      have hrun := sys_count cfg hact k (.first names t) t _ _ hk rfl rfl rfl
      rw [sysRun_stable cfg cand act hle2 _ _ ht] at hrun
      cases hrun with
      | cut _ h => exact h hi
      | run _ h => rw [h] at ht; exact ht
      | stop h _ _ => exact h

end

/-! ## What the nodes are -/

theorem Consistent.restrict {m : Model} {H : Heap} {cs : List Constraint} (hfn : ∀ c ∈ cs, FnOk H c) {pre q : List Name} {σ ρ : Subst}
    (hk : σ.keys = pre) (h : Consistent m cs H (pre ++ q) (σ ++ ρ : Subst)) : Consistent m cs H pre σ := by
  have hget : ∀ y ∈ pre, Dict.get? (σ ++ ρ : Subst) y = σ.get? y := by
    intro y hy
    rw [← hk] at hy
    obtain ⟨v, hv⟩ := Dict.get?_isSome_of_mem_keys hy
    rw [Dict.get?_append, hv]; rfl
  refine ⟨hk, ?_, ?_, ?_⟩
  · intro x v hx
    exact h.dom x v (by rw [hget x (by rw [← hk]; exact Dict.mem_keys_of_get? hx)]; exact hx)
  · intro c hc had hv hb
    refine (holds_congr (hfn c hc) ?_).1 (h.con c hc had hv (fun x hx => List.mem_append_left _ (hb x hx)))
    intro y hy; exact hget y (hb y hy)
  · intro c hc had x hx y hy hxp hyp hne
    have := h.diff c hc had x hx y hy (List.mem_append_left _ hxp) (List.mem_append_left _ hyp) hne
    rwa [hget x hxp, hget y hyp] at this

section
variable {m : Model} {H : Heap} {cs : List Constraint} {info : Info}

theorem nodes_ext (c : Name → Subst → Res (List Int)) (xs : List Name) : ∀ σ : Subst, xs.Nodup → (∀ x ∈ xs, σ.get? x = none) →
    ∀ τ ∈ nodes c xs σ, ∃ ρ : Subst, ρ ≠ [] ∧ τ = σ ++ ρ := by
  induction xs with
  | nil => intro σ _ _ τ h; simp [nodes] at h
  | cons x xs ih =>
    intro σ hn hf τ h
    have hx : x ∉ xs := (List.nodup_cons.1 hn).1
    rw [nodes] at h
    cases hc : c x σ with
    | error e => rw [hc] at h; simp at h
    | ok vs =>
      rw [hc] at h
      simp only [List.mem_flatMap, List.mem_cons] at h
      obtain ⟨v, _, h⟩ := h
      have hset := Dict.set_of_none σ x v (hf x (by simp))
      rcases h with rfl | h
      · exact ⟨[(x, v)], by simp, hset⟩
      · obtain ⟨ρ, hρ, rfl⟩ := ih (σ.set x v) (List.nodup_cons.1 hn).2 (by
          intro y hy
          rw [Dict.get?_set_ne _ _ (by rintro rfl; exact hx hy)]
          exact hf y (by simp [hy])) τ h
        exact ⟨(x, v) :: ρ, by simp, by rw [hset]; simp⟩

theorem nodes_nodup (c : Name → Subst → Res (List Int)) (hc : ∀ x σ vs, c x σ = .ok vs → vs.Nodup) (xs : List Name) :
    ∀ σ : Subst, xs.Nodup → (∀ x ∈ xs, σ.get? x = none) → (nodes c xs σ).Nodup := by
  induction xs with
  | nil => intro σ _ _; simp [nodes]
  | cons x xs ih =>
    intro σ hn hf
    have hx : x ∉ xs := (List.nodup_cons.1 hn).1
    have hf' : ∀ v, ∀ y ∈ xs, (σ.set x v).get? y = none := by
      intro v y hy
      rw [Dict.get?_set_ne _ _ (by rintro rfl; exact hx hy)]
      exact hf y (by simp [hy])
    rw [nodes]
    cases hcx : c x σ with
    | error e => simp
    | ok vs =>
      have hvs := hc x σ vs hcx
      simp only
      rw [List.nodup_flatMap]
      refine ⟨fun v _ => List.nodup_cons.2 ⟨fun hm => ?_, ih _ (List.nodup_cons.1 hn).2 (hf' v)⟩, hvs.imp ?_⟩
      · obtain ⟨ρ, hρ, he⟩ := nodes_ext c xs _ (List.nodup_cons.1 hn).2 (hf' v) _ hm
        have := congrArg List.length he
        rw [List.length_append] at this
        exact hρ (List.length_eq_zero_iff.1 (by omega))
      · intro v w hvw
        have hv : ∀ u, ∀ τ ∈ σ.set x u :: nodes c xs (σ.set x u), τ.get? x = some u := by
          intro u τ hτ
          rcases List.mem_cons.1 hτ with rfl | hτ
          · simp
          · obtain ⟨ρ, _, rfl⟩ := nodes_ext c xs _ (List.nodup_cons.1 hn).2 (hf' u) _ hτ
            rw [Dict.get?_append]; simp
        intro τ h1 h2
        have e1 := hv v τ h1
        rw [hv w τ h2] at e1
        cases e1
        exact hvw rfl

theorem nodes_sound (hm : m.vars.keys.Nodup) (hi : SetupInv m H cs info) (hfn : ∀ c ∈ cs, FnOk H c) (xs : List Name) :
    ∀ (pre : List Name) (σ : Subst), (pre ++ xs).Nodup → Consistent m cs H pre σ → ∀ τ ∈ nodes (candidates info H) xs σ,
    ∃ q, q ≠ [] ∧ q <+: xs ∧ Consistent m cs H (pre ++ q) τ := by
  induction xs with
  | nil => intro pre σ _ _ τ h; simp [nodes] at h
  | cons x xs ih =>
    intro pre σ hn hσ τ h
    have hx : x ∉ pre := by
      intro hm; exact (List.nodup_append.1 hn).2.2 x hm x (by simp) rfl
    rw [nodes] at h
    cases hc : candidates info H x σ with
    | error e => rw [hc] at h; simp at h
    | ok vs =>
      rw [hc] at h
      simp only [List.mem_flatMap, List.mem_cons] at h
      obtain ⟨v, hv, h⟩ := h
      have hcon := (candidates_consistent hm hi hfn hσ hx hc v).1 hv
      rcases h with rfl | h
      · exact ⟨[x], by simp, by simp, hcon⟩
      · obtain ⟨q, hq, hpre, hτ⟩ := ih (pre ++ [x]) (σ.set x v) (by simpa using hn) hcon τ h
        exact ⟨x :: q, by simp, by simpa using hpre, by simpa using hτ⟩

theorem nodes_complete (hm : m.vars.keys.Nodup) (hi : SetupInv m H cs info) (hfn : ∀ c ∈ cs, FnOk H c) (xs : List Name) :
    ∀ (pre : List Name) (σ : Subst), (pre ++ xs).Nodup → Consistent m cs H pre σ →
    (dfs (candidates info) passive xs σ H).2 = .ok H →
    ∀ (q : List Name) (ρ : Subst), ρ ≠ [] → q <+: xs → Consistent m cs H (pre ++ q) (σ ++ ρ : Subst) →
      (σ ++ ρ : Subst) ∈ nodes (candidates info H) xs σ := by
  induction xs with
  | nil =>
    intro pre σ _ hσ _ q ρ hρ hq h
    have hq : q = [] := by simpa using hq
    subst hq
    have := h.keys
    rw [Dict.keys_append, hσ.keys] at this
    simp [Dict.keys] at this
    exact absurd this hρ
  | cons x xs ih =>
    intro pre σ hn hσ hd q ρ hρ hq h
    have hx : x ∉ pre := by
      intro hm; exact (List.nodup_append.1 hn).2.2 x hm x (by simp) rfl
    have hkeys := h.keys
    rw [Dict.keys_append, hσ.keys, List.append_cancel_left_eq] at hkeys
    obtain ⟨⟨y, v⟩, ρ', rfl⟩ := List.exists_cons_of_ne_nil hρ
    cases q with
    | nil => simp [Dict.keys] at hkeys
    | cons z q =>
      simp only [Dict.keys, List.map_cons, List.cons.injEq] at hkeys
      have hzx : z = x := (List.cons_prefix_cons.1 hq).1
      have hq' : q <+: xs := (List.cons_prefix_cons.1 hq).2
      have hyx : y = x := hkeys.1.trans hzx
      subst hzx; subst hyx
      have hnone : σ.get? y = none := (Dict.get?_eq_none_iff _ _).2 (by rw [hσ.keys]; exact hx)
      have hset := Dict.set_of_none σ y v hnone
      have happ : (σ ++ (y, v) :: ρ' : Subst) = (σ.set y v ++ ρ' : Subst) := by rw [hset]; simp
      rw [happ] at h ⊢
      have hcon : Consistent m cs H (pre ++ [y]) (σ.set y v) := by
        refine Consistent.restrict (q := q) (ρ := ρ') hfn ?_ (by simpa using h)
        rw [hset, Dict.keys_append, hσ.keys]; rfl
      rw [dfs] at hd
      rw [nodes]
      cases hc : candidates info H y σ with
      | error e => rw [hc] at hd; simp at hd
      | ok vs =>
        rw [hc] at hd
        simp only at hd ⊢
        have hvm := (candidates_consistent hm hi hfn hσ hx hc v).2 hcon
        have hchild := ((dfsVals_complete (f := fun v s => dfs (candidates info) passive xs (σ.set y v) s) vs
          (fun v _ s' hs' => dfs_state (cand := candidates info) (fun σ => rfl) xs (σ.set y v) s' hs') H hd).2 v hvm).2
        rw [List.mem_flatMap]
        refine ⟨v, hvm, ?_⟩
        by_cases hρ' : ρ' = []
        · subst hρ'; rw [List.append_nil]; exact List.mem_cons_self
        · exact List.mem_cons_of_mem _ (ih (pre ++ [y]) (σ.set y v) (by simpa using hn) hcon hchild q ρ' hρ' hq' (by simpa using h))

end

end Satisfy
