import Verif.Lemmas.Left
import Verif.Props.Pareto
/-!
# C66: `optimize` hands out an optimum
-/

namespace Satisfy.Props
open Satisfy

/-! ## What a search leaves out -/

/-- If whatever is left out at a node is covered by the solutions handed out before, then in the end everything is covered. -/
theorem dfs_covers {S : Type} {cand : S → Name → Subst → Res (List Int)} {act : S → Subst → Res S} {P : Name → Subst → Int → Prop}
    {Inv : List Subst → S → Prop} {Cov : List Subst → Subst → Prop}
    (hact : ∀ hist s σ s', Inv hist s → act s σ = .ok s' → Inv (hist ++ [σ]) s')
    (hmono : ∀ hist l τ, Cov hist τ → Cov (hist ++ l) τ) (hown : ∀ hist τ, Cov (hist ++ [τ]) τ)
    (hcut : ∀ hist s x σ vs v τ, Inv hist s → cand s x σ = .ok vs → P x σ v → v ∉ vs →
      (∀ y, (σ.set x v).get? y ≠ none → τ.get? y = (σ.set x v).get? y) → Cov hist τ) (xs : List Name) :
    ∀ σ hist s s', xs.Nodup → (∀ y ∈ xs, σ.get? y = none) → Inv hist s → (dfs cand act xs σ s).2 = .ok s' →
      Inv (hist ++ (dfs cand act xs σ s).1) s' ∧ ∀ τ, Path P xs σ τ → Cov (hist ++ (dfs cand act xs σ s).1) τ := by
  induction xs with
  | nil =>
    intro σ hist s s' _ _ hI h
    simp only [dfs] at h ⊢
    exact ⟨hact hist s σ s' hI h, fun τ hp => by cases hp; exact hown hist σ⟩
  | cons x xs ih =>
    intro σ hist s s' hnd hfree hI h
    rw [dfs] at h ⊢
    obtain ⟨hx, hnd⟩ := List.nodup_cons.1 hnd
    have hfree' : ∀ v, ∀ y ∈ xs, (σ.set x v).get? y = none := by
      intro v y hy
      rw [Dict.get?_set_ne _ _ (by rintro rfl; exact hx hy)]
      exact hfree y (by simp [hy])
    cases hv : cand s x σ with
    | error e => rw [hv] at h; simp at h
    | ok vs =>
      rw [hv] at h
      simp only at h ⊢
      have loop : ∀ (ws : List Int) (hist : List Subst) (s : S), Inv hist s →
          (dfsVals (fun v s => dfs cand act xs (σ.set x v) s) ws s).2 = .ok s' →
          Inv (hist ++ (dfsVals (fun v s => dfs cand act xs (σ.set x v) s) ws s).1) s' ∧
          ∀ v ∈ ws, ∀ τ, Path P xs (σ.set x v) τ → Cov (hist ++ (dfsVals (fun v s => dfs cand act xs (σ.set x v) s) ws s).1) τ := by
        intro ws
        induction ws with
        | nil =>
          intro hist s hI h
          simp only [dfsVals, Except.ok.injEq] at h ⊢
          subst h
          exact ⟨by simpa using hI, by simp⟩
        | cons v ws ihw =>
          intro hist s hI h
          rw [dfsVals] at h ⊢
          cases hf : dfs cand act xs (σ.set x v) s with
          | mk ou r =>
            rw [hf] at h
            cases r with
            | error e => simp at h
            | ok s1 =>
              simp only at h ⊢
              obtain ⟨g1, g2⟩ := ih (σ.set x v) hist s s1 hnd (hfree' v) hI (by rw [hf])
              rw [hf] at g1 g2
              obtain ⟨k1, k2⟩ := ihw (hist ++ ou) s1 g1 h
              rw [List.append_assoc] at k1
              refine ⟨k1, fun u hu τ hp => ?_⟩
              rw [← List.append_assoc]
              rcases List.mem_cons.1 hu with rfl | hu
              · exact hmono _ _ _ (g2 τ hp)
              · exact k2 u hu τ hp
      obtain ⟨l1, l2⟩ := loop vs hist s hI h
      refine ⟨l1, fun τ hp => ?_⟩
      cases hp with
      | @cons _ _ _ v _ hP hp =>
        by_cases hvs : v ∈ vs
        · exact l2 v hvs τ hp
        · refine hmono _ _ _ (hcut hist s x σ vs v τ hI hv hP hvs (fun y hy => ?_))
          exact hp.old y (fun hyx => hy (hfree' v y hyx))

/-- A solution handed out has a value in every objective. -/
theorem onSolution_values {a : SolveArgs} {os : List Objective} {w w' : World} {ks : List ObjCon} (hok : OptOk a os w) (hm : Made w os ks w') (τ : Subst) :
    ∀ (l : List ObjCon), (∀ k ∈ l, k ∈ ks) → ∀ s s', (∀ i < w.heap.nparams, s.params i = w.heap.params i) →
      onSolution l s τ = .ok s' → ∀ k ∈ l, k.obj.expr.eval w.heap.params τ = .ok (k.obj.expr.val w.heap.params τ) := by
  intro l
  induction l with
  | nil => simp
  | cons k0 l ih =>
    intro hsub s s' hpar h
    simp only [onSolution, ObjCon.addSolution, bind_eq_ok, pure_res, Except.ok.injEq] at h
    obtain ⟨s1, ⟨v, hv, rfl⟩, h2⟩ := h
    have hk0 := hsub k0 (by simp)
    have := ih (fun k hk => hsub k (by simp [hk])) _ s'
      (fun i hi => by rw [← (setBound_steady (hm.fresh k0 hk0) v s).1 i hi]; exact hpar i hi) h2
    intro k hk
    rcases List.mem_cons.1 hk with rfl | hk
    · rw [(safe_old hok (by rw [← hm.objs]; exact List.mem_map.2 ⟨k, hk0, rfl⟩) hpar).2] at hv
      exact eval_ok_val _ _ hv
    · exact this k hk

/-! ## The claim -/

/-- `τ` is among the solutions, or one of them is at least as good in some objective. -/
def Covered (ρ : Store) (os : List Objective) (outs : List Subst) (τ : Subst) : Prop :=
  (∃ τ' ∈ outs, SameDict τ' τ) ∨
    ∃ σ ∈ outs, ∃ o ∈ os, ∃ v v', o.expr.eval ρ σ = .ok v ∧ o.expr.eval ρ τ = .ok v' ∧ o.le v v'

/-- The bounds in force come from solutions handed out. -/
def FromOuts (ρ : Store) (ks : List ObjCon) (hist : List Subst) (s : Heap) : Prop :=
  ∀ k ∈ ks, ∀ B, bndK k s = some B → ∃ σ ∈ hist, k.obj.expr.eval ρ σ = .ok B

/-- What an optimisation that ended by itself looks like: its search, and the branch of a solution. -/
structure Frame (a : SolveArgs) (os : List Objective) (w : World) (n : Nat) (τ : Subst) (ks : List ObjCon) (w' : World) (H : Heap) (info : Info)
    (names : List Name) (τ2 : Subst) : Prop where
  made : Made w os ks w'
  apart : ks.Pairwise Apart
  nodup : names.Nodup
  mem : ∀ x, x ∈ names ↔ (w.model.domain? x).isSome
  inv : SetupInv w'.model H (w'.model.constraints ++ (a.withObjectives ks).adds) info
  params : ∀ i < w.heap.nparams, H.params i = w.heap.params i
  ready : ∀ k ∈ ks, Ready a.solver.compile k H
  unset : ∀ k ∈ ks, bndK k H = none
  outs : (optimizeRun a os n w).1 = (dfs (candidates info) (onSolution ks) names [] H).1
  last : (dfs (candidates info) (onSolution ks) names [] H).2 = .ok (optimizeRun a os n w).2.2.heap
  path : Path (Accepts info H (Old w.heap)) names [] τ2
  same : SameDict τ2 τ

theorem bound_holds {a : SolveArgs} {os : List Objective} {w w' : World} {ks : List ObjCon} (hok : OptOk a os w) (hm : Made w os ks w')
    (hsafe : a.solver.compile = true → ∀ o ∈ os, o.Safe w.heap.params) {k : ObjCon} (hk : k ∈ ks) {s : Heap}
    (hs : ∀ i < w.heap.nparams, s.params i = w.heap.params i) (hr : Ready a.solver.compile k s) {σ : Subst} {v : Int}
    (hv : k.obj.expr.eval w.heap.params σ = .ok v) (hB : ∀ B, bndK k s = some B → ¬ k.obj.le B v) :
    ∃ r, k.con.evaluate s σ = .ok r ∧ r ≠ 0 := by
  have hobj : k.obj ∈ os := by rw [← hm.objs]; exact List.mem_map.2 ⟨k, hk, rfl⟩
  have f := hm.fresh k hk
  obtain ⟨p, x, hp, _⟩ := f.notSet
  obtain ⟨q, y, hq, _⟩ := f.bound
  obtain ⟨hs1, hs2⟩ := safe_old hok hobj hs
  rw [← hs2] at hv
  refine ⟨_, con_evaluate f hr (fun hc => hs1.1 (hsafe hc k.obj hobj)) hp hq hv, ?_⟩
  rw [pyOr_bound]
  intro h0
  refine hB _ ?_
  rw [bndK_eq hp hq]; unfold bndOf; rw [if_pos h0]

theorem opt_frame {a : SolveArgs} {os : List Objective} {w : World} (hok : OptOk a os w) (hsol : w.model.solvable = true)
    (hvar : ∃ x, (w.model.domain? x).isSome) (hsafe : a.solver.compile = true → ∀ o ∈ os, o.Safe w.heap.params) (n : Nat)
    (hend : (optimizeRun a os n w).2.1.phase = .finished) (hint : (optimizeRun a os n w).2.1.interrupt = none)
    (τ : Subst) (hτ : IsSolution w.model (w.model.constraints ++ a.adds) (optimizeRun a os n w).2.2.heap τ)
    (hval : ∀ o ∈ os, ∃ v, o.expr.eval w.heap.params τ = .ok v) : ∃ ks w' H info names τ2, Frame a os w n τ ks w' H info names τ2 := by
  obtain ⟨ks, w', hmk, hm⟩ := makeConstraints_spec os w hok.names
  have hsep := makeConstraints_apart os w w' ks hok.names hmk
  have hok' := made_solveOk hok hm
  have hrun := optimizeRun_eq (a := a) (n := n) hmk
  rw [hrun] at hend hint hτ
  simp only at hend hint hτ
  obtain ⟨H, info, hset, hstart, hperm, houts, hlast⟩ := run_natural (a := a.withObjectives ks) hok'.shuffle hok'.wf.names
    (by rw [hm.solvable]; exact hsol) (by simpa only [made_domain hm] using hvar) (onSolution ks) hend hint
  obtain ⟨hH, hinv, _⟩ := setup_spec hok'.ids hset
  rw [← hH] at hinv
  generalize orderVars (a.withObjectives ks).solver.policy (a.withObjectives ks).shuffle w'.model info = names at *
  have hnd : names.Nodup := hperm.nodup_iff.2 (pureVars_nodup hok'.wf.names)
  have hpar : ∀ i < w.heap.nparams, H.params i = w.heap.params i := by
    rw [hH]; exact start_params (a := a) hm _ _
  have hst := opt_steady (a := a) hm n
  rw [hstart] at hst
  simp only at hst
  have hobj : ∀ k ∈ ks, k.obj ∈ os := fun k hk => by rw [← hm.objs]; exact List.mem_map.2 ⟨k, hk, rfl⟩
  have hready : ∀ k ∈ ks, Ready a.solver.compile k H := by
    intro k hk
    have := ready_start hok hm (k := k) hk
    rw [hH]; exact this
  have hunset : ∀ k ∈ ks, bndK k H = none := by
    intro k hk
    obtain ⟨p, x, hp, _, _, hp1⟩ := (hm.fresh k hk).notSet
    obtain ⟨q, y, hq, _, _, _⟩ := (hm.fresh k hk).bound
    rw [bndK_eq hp hq]
    unfold bndOf
    rw [hH, compileAll_params, hp1]
    simp
  obtain ⟨τ2, hpath, hsame⟩ := path_accepts (R := Old w.heap) (τ := τ) hok'.wf.names hinv
    (fun c hc => by rw [hH]; exact compileAll_fnOk _ hok'.ids hok'.fns c hc) (names := names) hperm
    ((made_assignment hm τ).2 hτ.toAssignment)
    (by
      intro c hc hcase
      simp only [SolveArgs.withObjectives, hm.cons, ← List.append_assoc] at hc
      rcases List.mem_append.1 hc with hc | hc
      · obtain ⟨r, hr, hr0⟩ := hτ.con c hc
        exact ⟨r, by rw [steady_evaluate hst (hok.old c hc)]; exact hr, hr0⟩
      · obtain ⟨k, hk, rfl⟩ := List.mem_map.1 hc
        obtain ⟨v, hv⟩ := hval k.obj (hobj k hk)
        exact bound_holds hok hm hsafe hk hpar (hready k hk) hv (fun B hB => by rw [hunset k hk] at hB; cases hB))
  refine ⟨ks, w', H, info, names, τ2, hm, hsep, hnd, fun x => ?_, hinv, hpar, hready, hunset, by rw [hrun]; exact houts,
    by rw [hrun]; exact hlast, hpath, hsame⟩
  rw [hperm.mem_iff, ← made_domain hm, ← pureVars_get? hok'.wf.names]
  constructor
  · intro h; obtain ⟨v, hv⟩ := Dict.get?_isSome_of_mem_keys h; simp [hv]
  · intro h; obtain ⟨v, hv⟩ := Option.isSome_iff_exists.1 h; exact Dict.mem_keys_of_get? hv

/-- C66: `optimize`, if it is not interrupted, leaves out a solution only after it has handed out one that is at least as good in some objective. There
is no condition on the objectives, other than that they have a value at the solution left out (and compile faithfully, if they are compiled). -/
theorem C66_covered {a : SolveArgs} {os : List Objective} {w : World} (hok : OptOk a os w) (hsol : w.model.solvable = true)
    (hvar : ∃ x, (w.model.domain? x).isSome) (hsafe : a.solver.compile = true → ∀ o ∈ os, o.Safe w.heap.params) (n : Nat)
    (hend : (optimizeRun a os n w).2.1.phase = .finished) (hint : (optimizeRun a os n w).2.1.interrupt = none)
    (τ : Subst) (hτ : IsSolution w.model (w.model.constraints ++ a.adds) (optimizeRun a os n w).2.2.heap τ)
    (hval : ∀ o ∈ os, ∃ v, o.expr.eval w.heap.params τ = .ok v) : Covered w.heap.params os (optimizeRun a os n w).1 τ := by
  obtain ⟨ks, w', H, info, names, τ2, hF⟩ := opt_frame hok hsol hvar hsafe n hend hint τ hτ hval
  obtain ⟨hm, hsep, hnd, _, hinv, hpar, hready, hunset, houts, hlast, hpath, hsame⟩ := hF
  have hobj : ∀ k ∈ ks, k.obj ∈ os := fun k hk => by rw [← hm.objs]; exact List.mem_map.2 ⟨k, hk, rfl⟩
  have hsteady : ∀ s, Steady w.heap H s → ∀ i < w.heap.nparams, s.params i = w.heap.params i :=
    fun s hs i hi => by rw [← hs.1 i hi]; exact hpar i hi
  have hval2 : ∀ o ∈ os, ∃ v, o.expr.eval w.heap.params τ2 = .ok v := fun o ho => by
    rw [eval_congr _ τ2 τ _ (fun z _ => hsame z)]; exact hval o ho
  have hcov := (dfs_covers (cand := candidates info) (act := onSolution ks) (P := Accepts info H (Old w.heap))
    (Inv := fun hist s => Steady w.heap H s ∧ (∀ k ∈ ks, Ready a.solver.compile k s) ∧ FromOuts w.heap.params ks hist s)
    (Cov := fun hist τ => (∀ o ∈ os, ∃ v, o.expr.eval w.heap.params τ = .ok v) → Covered w.heap.params os hist τ)
    ?_ ?_ ?_ ?_ names [] [] H _ hnd (by simp) ⟨.refl _ _, hready, ?_⟩ hlast).2 τ2 hpath hval2
  · rw [houts]
    rw [List.nil_append] at hcov
    rcases hcov with ⟨τ', h1, h2⟩ | ⟨σ, h1, o, ho, v, v', hv, hv', hle⟩
    · exact .inl ⟨τ', h1, fun z => (h2 z).trans (hsame z)⟩
    · exact .inr ⟨σ, h1, o, ho, v, v', hv, by rw [← eval_congr _ τ2 τ _ (fun z _ => hsame z)]; exact hv', hle⟩
  · rintro hist s σ s' ⟨hs, hr, hf⟩ hact
    obtain ⟨i1, i2, _⟩ := onSolution_all hok hm hsep σ ks (fun _ h => h) (made_nodup hm) s s' (hsteady s hs) hact
    refine ⟨hs.trans (onSolution_steady hm.fresh hact), fun k hk => i1 _ k hk (hr k hk), fun k hk B hB => ?_⟩
    rw [i2 k hk] at hB
    cases hB
    exact ⟨σ, by simp, onSolution_values hok hm σ ks (fun _ h => h) s s' (hsteady s hs) hact k hk⟩
  · rintro hist l τ hc hv
    rcases hc hv with ⟨τ', h1, h2⟩ | ⟨σ, h1, h2⟩
    · exact .inl ⟨τ', by simp [h1], h2⟩
    · exact .inr ⟨σ, by simp [h1], h2⟩
  · exact fun hist τ _ => .inl ⟨τ, by simp, fun _ => rfl⟩
  · rintro hist s x σ vs v τ ⟨hs, hr, hf⟩ hc ⟨⟨d, hd, hvd⟩, had, hold⟩ hvs hext hv
    obtain ⟨d', hd', _, hmem⟩ := candidates_ok hc
    rw [hd] at hd'; cases hd'
    by_contra hno
    refine hvs ((hmem v).2 ⟨hvd, acceptable_true.2 ⟨had, fun c hcx => ?_⟩⟩)
    have hcx' := hcx
    rw [hinv.cons] at hcx'
    have hcx' := (List.mem_filter.1 hcx').1
    simp only [SolveArgs.withObjectives, hm.cons, ← List.append_assoc] at hcx'
    rcases List.mem_append.1 hcx' with h | h
    · have ho := hok.old c h
      rw [← unsatisfied_eq_of_evaluate (steady_evaluate hs ho _)]; exact hold c hcx ho
    · obtain ⟨k, hk, rfl⟩ := List.mem_map.1 h
      by_cases hb : ∀ y ∈ k.con.vars, (σ.set x v).get? y ≠ none
      · rw [unsat_of_bound hb]
        have f := hm.fresh k hk
        obtain ⟨p, x', hp, _⟩ := f.notSet
        obtain ⟨q, y', hq, _⟩ := f.bound
        have hkind := f.con
        rw [hp, hq] at hkind
        obtain ⟨u, hu⟩ := hv k.obj (hobj k hk)
        have hu' : k.obj.expr.eval w.heap.params (σ.set x v) = .ok u := by
          rw [← hu]
          refine eval_congr _ _ _ _ (fun y hy => (hext y (hb y ?_)).symm)
          simp only [Constraint.vars, CKind.vars, hkind]
          exact (mem_boundExpr_vars k.obj p q x' y' y).2 hy
        obtain ⟨r, hr1, hr2⟩ := bound_holds hok hm hsafe hk (hsteady s hs) (hr k hk) hu' (fun B hB hle => by
          obtain ⟨σ', hσ', hev⟩ := hf k hk B hB
          exact hno (.inr ⟨σ', hσ', k.obj, hobj k hk, B, u, hev, hu, hle⟩))
        rw [hr1]
        simp [truthy, hr2]
      · simp only [not_forall, not_not] at hb
        obtain ⟨y, hy, hnone⟩ := hb
        exact unsat_of_missing hy hnone
  · intro k hk B hB
    rw [hunset k hk] at hB
    cases hB

/-- A best one among finitely many. -/
theorem exists_best (o : Objective) {α : Type} (f : α → Int) : ∀ l : List α, l ≠ [] → ∃ x ∈ l, ∀ y ∈ l, o.le (f x) (f y) := by
  intro l
  induction l with
  | nil => intro h; exact absurd rfl h
  | cons z l ih =>
    intro _
    by_cases hl : l = []
    · exact ⟨z, by simp, by intro y hy; rw [hl] at hy; simp at hy; rw [hy]; exact o.le_refl _⟩
    · obtain ⟨x, hx, hbest⟩ := ih hl
      by_cases hle : o.le (f x) (f z)
      · refine ⟨x, by simp [hx], fun y hy => ?_⟩
        rcases List.mem_cons.1 hy with rfl | hy
        · exact hle
        · exact hbest y hy
      · refine ⟨z, by simp, fun y hy => ?_⟩
        rcases List.mem_cons.1 hy with rfl | hy
        · exact o.le_refl _
        · exact o.le_trans (o.le_total hle) (hbest y hy)

/-- C66: with one objective, the solutions handed out include one that is at least as good as every solution of the model. -/
theorem C66_best {a : SolveArgs} {o : Objective} {w : World} (hok : OptOk a [o] w) (hsol : w.model.solvable = true)
    (hvar : ∃ x, (w.model.domain? x).isSome) (hover : ∀ c ∈ w.model.constraints ++ a.adds, Over w.model c)
    (hsafe : a.solver.compile = true → o.Safe w.heap.params)
    (hval : ∀ τ, Assignment w.model τ → ∃ v, o.expr.eval w.heap.params τ = .ok v) (n : Nat)
    (hend : (optimizeRun a [o] n w).2.1.phase = .finished) (hint : (optimizeRun a [o] n w).2.1.interrupt = none)
    (hex : ∃ τ, IsSolution w.model (w.model.constraints ++ a.adds) (optimizeRun a [o] n w).2.2.heap τ) :
    ∃ σ ∈ (optimizeRun a [o] n w).1, IsSolution w.model (w.model.constraints ++ a.adds) (optimizeRun a [o] n w).2.2.heap σ ∧
      ∃ v, o.expr.eval w.heap.params σ = .ok v ∧
        ∀ τ, IsSolution w.model (w.model.constraints ++ a.adds) (optimizeRun a [o] n w).2.2.heap τ →
          ∃ v', o.expr.eval w.heap.params τ = .ok v' ∧ o.le v v' := by
  have hsafe' : a.solver.compile = true → ∀ o' ∈ [o], o'.Safe w.heap.params := fun hc o' ho' => by
    simp at ho'; subst ho'; exact hsafe hc
  have hval' : ∀ τ, Assignment w.model τ → ∀ o' ∈ [o], ∃ v, o'.expr.eval w.heap.params τ = .ok v := fun τ hτ o' ho' => by
    simp at ho'; subst ho'; exact hval τ hτ
  obtain ⟨τ0, hτ0⟩ := hex
  have hne := opt_complete hok hsol hvar hsafe' n hend hint τ0 hτ0 (hval' τ0 hτ0.toAssignment)
  obtain ⟨σ, hσ, hbest⟩ := exists_best o (fun σ => o.expr.val w.heap.params σ) _ hne
  have hS := C28_sound hok hover n
  obtain ⟨v, hv⟩ := hval σ (hS σ hσ).toAssignment
  refine ⟨σ, hσ, hS σ hσ, v, hv, fun τ hτ => ?_⟩
  obtain ⟨v', hv'⟩ := hval τ hτ.toAssignment
  refine ⟨v', hv', ?_⟩
  rw [← val_of_ok _ _ hv]
  rcases C66_covered hok hsol hvar hsafe' n hend hint τ hτ (hval' τ hτ.toAssignment) with ⟨τ', h1, h2⟩ | ⟨σ', h1, o', ho', u, u', hu, hu', hle⟩
  · have := hbest τ' h1
    rw [val_of_ok _ _ (show o.expr.eval w.heap.params τ' = .ok v' by rw [eval_congr _ τ' τ _ (fun z _ => h2 z)]; exact hv')] at this
    exact this
  · simp at ho'; subst ho'
    rw [hv'] at hu'; cases hu'
    have := hbest σ' h1
    rw [val_of_ok _ _ hu] at this
    exact o'.le_trans this hle

/-- The search of an optimisation with one objective that is not over a single variable. -/
theorem opt_lb {a : SolveArgs} {o : Objective} {w w' : World} {k : ObjCon} {H : Heap} {info : Info} {names : List Name} (hok : OptOk a [o] w)
    (hm : Made w [o] [k] w') (hone : o.expr.vars.length ≠ 1) (hdecl : ∀ x ∈ o.expr.vars, (w.model.domain? x).isSome)
    (hsafe : a.solver.compile = true → o.Safe w.heap.params) (hvalued : o.Valued w.model w.heap.params)
    (hpar : ∀ i < w.heap.nparams, H.params i = w.heap.params i)
    (hinv : SetupInv w'.model H (w'.model.constraints ++ (a.withObjectives [k]).adds) info)
    (hmem : ∀ x, x ∈ names ↔ (w.model.domain? x).isSome) :
    LB (candidates info) (onSolution [k]) names o (Accepts info H (Old w.heap)) (InDom w.model)
      (fun s => Steady w.heap H s ∧ Ready a.solver.compile k s) (bndK k) (fun σ => o.expr.val w.heap.params σ) o.expr.vars := by
  have hko : k.obj = o := by have := hm.objs; simpa using this
  have hsep : [k].Pairwise Apart := List.pairwise_singleton _ _
  have hk : k ∈ [k] := by simp
  have f := hm.fresh k hk
  obtain ⟨p, x', hp, _⟩ := f.notSet
  obtain ⟨q, y', hq, _⟩ := f.bound
  have hkind : k.con.kind = .expr (boundExpr o (.param p x') (.param q y')) := by rw [f.con, hp, hq, hko]
  have hkvars : ∀ z, z ∈ k.con.vars ↔ z ∈ o.expr.vars := by
    intro z
    simp only [Constraint.vars, CKind.vars, hkind]; exact mem_boundExpr_vars o p q x' y' z
  have hparS : ∀ s, Steady w.heap H s → ∀ i < w.heap.nparams, s.params i = w.heap.params i := fun s hs i hi => by
    rw [← hs.1 i hi]; exact hpar i hi
  have hdom : ∀ z d, info.vars.get? z = some d → ∃ d0, w.model.domain? z = some d0 ∧ d.Sublist d0 := by
    intro z d hd
    obtain ⟨d0, hd0, hsub, _⟩ := hinv.dom z d hd
    rw [pureVars_get? hm.inv.1, made_domain hm] at hd0
    exact ⟨d0, hd0, hsub⟩
  constructor
  · rintro s τ s' ⟨hs, hr⟩ _ _ hact
    obtain ⟨h1, h2, _⟩ := onSolution_all hok hm hsep τ [k] (fun _ h => h) (made_nodup hm) s s' (hparS s hs) hact
    exact ⟨⟨hs.trans (onSolution_steady hm.fresh hact), h1 _ k hk hr⟩, by rw [h2 k hk, hko]⟩
  · intro z σ v hQ hacc
    obtain ⟨⟨d, hd, hvd⟩, _⟩ := hacc
    obtain ⟨d0, hd0, hsub⟩ := hdom z d hd
    exact inDom_set hQ ⟨d0, hd0, hsub.mem hvd⟩
  · exact fun y hy => (hmem y).2 (hdecl y hy)
  · intro σ τ h
    simp only [Expr.val]
    rw [eval_congr _ _ _ _ h]
  · rintro s pre x post σ vs hnames hkeys ⟨hs, hr⟩ hQ hc v
    obtain ⟨d, hd, hsub, hmemv⟩ := candidates_ok hc
    obtain ⟨d0, hd0, hsub0⟩ := hdom x d hd
    have hkun : (∀ y ∈ o.expr.vars, y ≠ x → y ∈ pre) → v ∈ d0 → (k.con.unsatisfied s (σ.set x v) = .ok false ↔
        ∀ B, bndK k s = some B → ¬ o.le B (o.expr.val w.heap.params (σ.set x v))) := by
      intro hcl hv
      obtain ⟨r, hrv⟩ : ∃ r, o.expr.eval w.heap.params (σ.set x v) = .ok r := by
        refine hvalued _ (fun z hz => ?_)
        by_cases hzx : z = x
        · subst hzx; exact ⟨d0, v, hd0, hv, by simp [Dict.get?_set]⟩
        · obtain ⟨u, hu⟩ := Option.ne_none_iff_exists'.1 ((hkeys z).2 (hcl z hz hzx))
          obtain ⟨dz, hdz, huz⟩ := hQ z u hu
          exact ⟨dz, u, hdz, huz, by rw [Dict.get?_set_ne _ _ (Ne.symm hzx)]; exact hu⟩
      rw [unsat_of_bound (fun z hz => by
        by_cases hzx : z = x
        · subst hzx; simp [Dict.get?_set]
        · rw [Dict.get?_set_ne _ _ (Ne.symm hzx)]; exact (hkeys z).2 (hcl z ((hkvars z).1 hz) hzx))]
      have hold := safe_old hok (o := o) (by simp) (hparS s hs)
      rw [con_evaluate f hr (fun hc => by rw [hko]; exact hold.1.1 (hsafe hc)) hp hq (v := r) (by rw [hko, hold.2]; exact hrv)]
      have hpb := pyOr_bound k.obj (s.params p) r (s.params q)
      rw [val_of_ok _ _ hrv, bndK_eq hp hq]
      rw [hko] at hpb
      simp only [hko, ok_bind, pure_res, Except.ok.injEq, Bool.not_eq_false', truthy, bndOf, bne_iff_ne, decide_eq_true_eq]
      rw [hpb]
      constructor
      · intro h B hB
        split at hB
        · cases hB; exact h (by assumption)
        · cases hB
      · intro h h0; exact h _ (by rw [if_pos h0])
    constructor
    · intro hv
      refine ⟨accepts_of_candidates (fun _ c _ hc σ => steady_evaluate hs.symm hc σ) hc v hv, fun hx hcl => ?_⟩
      obtain ⟨h1, h2⟩ := (hmemv v).1 hv
      refine (hkun hcl (hsub0.mem h1)).1 ((acceptable_true.1 h2).2 _ ?_)
      rw [hinv.cons, List.mem_filter]
      refine ⟨by simp [SolveArgs.withObjectives], ?_⟩
      have h1 : k.con.isAD = false := by simp [Constraint.isAD, hkind]
      have h2 : k.con.vars.length ≠ 1 := by
        simp only [Constraint.vars, CKind.vars, hkind, boundExpr_vars_length]; exact hone
      simp [h1, h2, (hkvars x).2 hx]
    · rintro ⟨⟨⟨d', hd', hv⟩, had, hcons⟩, hB⟩
      rw [hd] at hd'; cases hd'
      refine (hmemv v).2 ⟨hv, acceptable_true.2 ⟨had, fun c hcz => ?_⟩⟩
      have hcz' := hcz
      rw [hinv.cons] at hcz'
      obtain ⟨hcz1, hcz2⟩ := List.mem_filter.1 hcz'
      simp only [SolveArgs.withObjectives, hm.cons, ← List.append_assoc] at hcz1
      rcases List.mem_append.1 hcz1 with h | h
      · have ho := hok.old c h
        rw [← unsatisfied_eq_of_evaluate (steady_evaluate hs ho _)]; exact hcons c hcz ho
      · simp only [List.map_cons, List.map_nil, List.mem_singleton] at h
        subst h
        have hx : x ∈ o.expr.vars := by
          simp only [Bool.and_eq_true, decide_eq_true_eq] at hcz2
          exact (hkvars x).1 hcz2.2
        by_cases hcl : ∀ y ∈ o.expr.vars, y ≠ x → y ∈ pre
        · exact (hkun hcl (hsub0.mem hv)).2 (hB hx hcl)
        · push Not at hcl
          obtain ⟨y, hy, hyx, hyp⟩ := hcl
          refine unsat_of_missing ((hkvars y).2 hy) ?_
          rw [Dict.get?_set_ne _ _ (Ne.symm hyx)]
          by_contra hne
          exact hyp ((hkeys y).1 hne)

/-- C66, an objective over a single variable: `optimize` leaves nothing out. It hands out all solutions of the model, like `solve`. -/
theorem C66_single {a : SolveArgs} {o : Objective} {w : World} (hok : OptOk a [o] w) (hsol : w.model.solvable = true)
    (hvar : ∃ x, (w.model.domain? x).isSome) (hsafe : a.solver.compile = true → o.Safe w.heap.params) (n : Nat)
    (hone : o.expr.vars.length = 1)
    (hend : (optimizeRun a [o] n w).2.1.phase = .finished) (hint : (optimizeRun a [o] n w).2.1.interrupt = none)
    (τ : Subst) (hτ : IsSolution w.model (w.model.constraints ++ a.adds) (optimizeRun a [o] n w).2.2.heap τ)
    (hval : ∃ v, o.expr.eval w.heap.params τ = .ok v) : ∃ τ' ∈ (optimizeRun a [o] n w).1, SameDict τ' τ := by
  obtain ⟨ks, w', H, info, names, τ2, hF⟩ := opt_frame hok hsol hvar (fun hc o' ho' => by simp at ho'; subst ho'; exact hsafe hc)
    n hend hint τ hτ (fun o' ho' => by simp at ho'; subst ho'; exact hval)
  obtain ⟨hm, hsep, hnd, _, hinv, hpar, hready, hunset, houts, hlast, hpath, hsame⟩ := hF
  have hcov := (dfs_covers (cand := candidates info) (act := onSolution ks) (P := Accepts info H (Old w.heap))
    (Inv := fun _ s => Steady w.heap H s) (Cov := fun hist τ => τ ∈ hist)
    (fun _ s σ s' hs hact => hs.trans (onSolution_steady hm.fresh hact)) (fun _ _ _ h => by simp [h]) (fun _ _ => by simp) ?_
    names [] [] H _ hnd (by simp) (.refl _ _) hlast).2 τ2 hpath
  · exact ⟨τ2, by rw [houts]; simpa using hcov, hsame⟩
  · rintro hist s x σ vs v τ hs hc ⟨⟨d, hd, hvd⟩, had, hold⟩ hvs _
    exfalso
    obtain ⟨d', hd', _, hmem⟩ := candidates_ok hc
    rw [hd] at hd'; cases hd'
    refine hvs ((hmem v).2 ⟨hvd, acceptable_true.2 ⟨had, fun c hcx => ?_⟩⟩)
    have hcx' := hcx
    rw [hinv.cons] at hcx'
    obtain ⟨hcx1, hcx2⟩ := List.mem_filter.1 hcx'
    simp only [SolveArgs.withObjectives, hm.cons, ← List.append_assoc] at hcx1
    rcases List.mem_append.1 hcx1 with h | h
    · have ho := hok.old c h
      rw [← unsatisfied_eq_of_evaluate (steady_evaluate hs ho _)]; exact hold c hcx ho
    · obtain ⟨k, hk, rfl⟩ := List.mem_map.1 h
      exfalso
      have f := hm.fresh k hk
      obtain ⟨p, x', hp, _⟩ := f.notSet
      obtain ⟨q, y', hq, _⟩ := f.bound
      have hko : k.obj = o := by
        have : k.obj ∈ [o] := by rw [← hm.objs]; exact List.mem_map.2 ⟨k, hk, rfl⟩
        simpa using this
      have hkind := f.con
      rw [hp, hq] at hkind
      have h2 : k.con.vars.length = 1 := by
        simp only [Constraint.vars, CKind.vars, hkind, boundExpr_vars_length, hko]; exact hone
      simp [h2] at hcx2

/-- The bound at the end is the value of the last solution handed out. -/
theorem opt_final {a : SolveArgs} {o : Objective} {w w' : World} {k : ObjCon} {H : Heap} {info : Info} {names : List Name} {n : Nat} {τ τ2 σ : Subst}
    (hok : OptOk a [o] w) (hF : Frame a [o] w n τ [k] w' H info names τ2) (hG : Steady w.heap H (optimizeRun a [o] n w).2.2.heap)
    (hσ : (optimizeRun a [o] n w).1.getLast? = some σ) {v : Int} (hv : o.expr.eval w.heap.params σ = .ok v) :
    bndK k (optimizeRun a [o] n w).2.2.heap = some v := by
  obtain ⟨hm, hsep, _, _, _, hpar, _, _, houts, hlast, _, _⟩ := hF
  have hko : k.obj = o := by have := hm.objs; simpa using this
  rcases dfs_last _ _ _ _ hlast with ⟨h, _⟩ | ⟨pre', τ1, s1, h, hact⟩
  · rw [houts, h] at hσ; simp at hσ
  · rw [houts, h] at hσ
    simp only [List.getLast?_append, List.getLast?_singleton, Option.some_or, Option.some.injEq] at hσ
    subst hσ
    have hst2 := onSolution_steady hm.fresh hact
    have : ∀ i < w.heap.nparams, s1.params i = w.heap.params i := by
      intro i hi
      rw [hst2.1 i hi, ← hG.1 i hi]
      exact hpar i hi
    have hb := (onSolution_all hok hm hsep _ [k] (fun _ h => h) (made_nodup hm) s1 _ this hact).2.1 k (by simp)
    rw [hko, val_of_ok _ _ hv] at hb
    exact hb

/-- C66, the solution returned: `optimal_solution` returns the last solution, and that need not be the best one (C30). But a solution better than the
one returned was never left out: `optimize` handed it out before. -/
theorem C66_result {a : SolveArgs} {o : Objective} {w : World} (hok : OptOk a [o] w) (hsol : w.model.solvable = true)
    (hvar : ∃ x, (w.model.domain? x).isSome) (hdecl : ∀ x ∈ o.expr.vars, (w.model.domain? x).isSome)
    (hsafe : a.solver.compile = true → o.Safe w.heap.params) (hvalued : o.Valued w.model w.heap.params) (n : Nat) (r : OptSolution) (σ : Subst)
    (hr : optimalSolution (optimizeRun a [o] n w) = some (.ok r)) (hopt : r.isOptimal = true) (hσ : r.solution = some σ) (v : Int)
    (hv : o.expr.eval w.heap.params σ = .ok v)
    (τ : Subst) (hτ : IsSolution w.model (w.model.constraints ++ a.adds) (optimizeRun a [o] n w).2.2.heap τ) (v' : Int)
    (hv' : o.expr.eval w.heap.params τ = .ok v') (hbetter : ¬ o.le v v') : ∃ τ' ∈ (optimizeRun a [o] n w).1, SameDict τ' τ := by
  have hint := ((C29_flag a [o] w n r hr).1.1 hopt).2
  unfold optimalSolution at hr
  split at hr
  · rename_i hend
    simp only [Option.some.injEq, Except.ok.injEq] at hr
    subst hr
    simp only at hσ
    by_cases hone : o.expr.vars.length = 1
    · exact C66_single hok hsol hvar hsafe n hone hend hint τ hτ ⟨v', hv'⟩
    obtain ⟨ks, w', H, info, names, τ2, hF⟩ := opt_frame hok hsol hvar (fun hc o' ho' => by simp at ho'; subst ho'; exact hsafe hc)
      n hend hint τ hτ (fun o' ho' => by simp at ho'; subst ho'; exact ⟨v', hv'⟩)
    obtain ⟨k, rfl⟩ : ∃ k, ks = [k] := by
      have := congrArg List.length hF.made.objs
      simp only [List.length_map, List.length_cons, List.length_nil] at this
      exact List.length_eq_one_iff.1 this
    have hF0 := hF
    obtain ⟨hm, hsep, hnd, hmem, hinv, hpar, hready, hunset, houts, hlast, hpath, hsame⟩ := hF
    obtain ⟨hG, _, _, hmain⟩ := (opt_lb hok hm hone hdecl hsafe hvalued hpar hinv hmem).main hnd names [] [] H _ rfl (by intro y; simp)
      (by intro x v h; simp at h) ⟨.refl _ _, hready k (by simp)⟩ hlast
    rcases hmain τ2 hpath with h | ⟨_, B, hB, hle⟩
    · exact ⟨τ2, by rw [houts]; exact h, hsame⟩
    · exfalso
      refine hbetter ?_
      rw [val_of_ok _ _ (show o.expr.eval w.heap.params τ2 = .ok v' by rw [eval_congr _ τ2 τ _ (fun z _ => hsame z)]; exact hv')] at hle
      rw [opt_final hok hF0 hG.1 hσ hv] at hB
      cases hB
      exact hle
  · simp at hr
  · simp at hr

/-- C66, how far from the best the solution returned can be: every solution of the model that is better than the one returned differs in only one variable
of the objective from a solution handed out that is not better than the one returned. -/
theorem C66_near {a : SolveArgs} {o : Objective} {w : World} (hok : OptOk a [o] w) (hsol : w.model.solvable = true)
    (hvar : ∃ x, (w.model.domain? x).isSome) (hdecl : ∀ x ∈ o.expr.vars, (w.model.domain? x).isSome)
    (hover : ∀ c ∈ w.model.constraints ++ a.adds, Over w.model c)
    (hsafe : a.solver.compile = true → o.Safe w.heap.params) (hvalued : o.Valued w.model w.heap.params) (n : Nat) (r : OptSolution) (σ : Subst)
    (hr : optimalSolution (optimizeRun a [o] n w) = some (.ok r)) (hopt : r.isOptimal = true) (hσ : r.solution = some σ) (v : Int)
    (hv : o.expr.eval w.heap.params σ = .ok v)
    (τ : Subst) (hτ : IsSolution w.model (w.model.constraints ++ a.adds) (optimizeRun a [o] n w).2.2.heap τ) (v' : Int)
    (hv' : o.expr.eval w.heap.params τ = .ok v') (hbetter : ¬ o.le v v') :
    ∃ z ∈ o.expr.vars, ∃ τ' ∈ (optimizeRun a [o] n w).1, (∀ y ∈ o.expr.vars, y ≠ z → τ'.get? y = τ.get? y) ∧
      ∃ u, o.expr.eval w.heap.params τ' = .ok u ∧ o.le v u := by
  have hS := C28_sound hok hover n
  have hlen : o.expr.vars ≠ [] := by
    intro he
    refine hbetter ?_
    rw [eval_congr _ σ τ _ (fun z hz => by rw [he] at hz; simp at hz), hv'] at hv
    cases hv
    exact o.le_refl _
  have hint := ((C29_flag a [o] w n r hr).1.1 hopt).2
  have hmemσ := (C29_flag a [o] w n r hr).2 σ hσ
  unfold optimalSolution at hr
  split at hr
  · rename_i hend
    simp only [Option.some.injEq, Except.ok.injEq] at hr
    subst hr
    simp only at hσ
    by_cases hone : o.expr.vars.length = 1
    · obtain ⟨z, hz⟩ := List.length_eq_one_iff.1 hone
      exact ⟨z, by simp [hz], σ, hmemσ, fun y hy hne => by rw [hz] at hy; simp at hy; exact absurd hy hne, v, hv, o.le_refl _⟩
    obtain ⟨ks, w', H, info, names, τ2, hF⟩ := opt_frame hok hsol hvar (fun hc o' ho' => by simp at ho'; subst ho'; exact hsafe hc)
      n hend hint τ hτ (fun o' ho' => by simp at ho'; subst ho'; exact ⟨v', hv'⟩)
    obtain ⟨k, rfl⟩ : ∃ k, ks = [k] := by
      have := congrArg List.length hF.made.objs
      simp only [List.length_map, List.length_cons, List.length_nil] at this
      exact List.length_eq_one_iff.1 this
    have hF0 := hF
    obtain ⟨hm, hsep, hnd, hmem, hinv, hpar, hready, hunset, houts, hlast, hpath, hsame⟩ := hF
    have hLB := opt_lb hok hm hone hdecl hsafe hvalued hpar hinv hmem
    obtain ⟨hG, _, _, hmain⟩ := hLB.main hnd names [] [] H _ rfl (by intro y; simp)
      (by intro x v h; simp at h) ⟨.refl _ _, hready k (by simp)⟩ hlast
    have hfin := opt_final hok hF0 hG.1 hσ hv
    rcases hmain τ2 hpath with h | ⟨_, B, hB, hle⟩
    · obtain ⟨x0, hx0⟩ := List.exists_mem_of_ne_nil _ hlen
      obtain ⟨front, z, back, hnames, hz, hno⟩ := exists_last names o.expr.vars ⟨x0, hx0, (hmem x0).2 (hdecl x0 hx0)⟩
      obtain ⟨l, hl, hagree, B, hB, hle⟩ := hLB.near hnd hz hnames (fun y hy hne => by
        have := (hmem y).2 (hdecl y hy)
        rw [hnames] at this
        simp only [List.mem_append, List.mem_cons] at this
        rcases this with h | h | h
        · exact h
        · exact absurd h hne
        · exact absurd h (hno y hy)) names [] [] H _ rfl (by rw [hnames]; simp) (by intro y; simp) (by intro x v h; simp at h)
        ⟨.refl _ _, hready k (by simp)⟩ hlast τ2 h
      rw [hfin] at hB
      cases hB
      rw [← houts] at hl
      obtain ⟨u, hu⟩ := hvalued l (fun y hy => by
        have hA := (hS l hl).toAssignment
        obtain ⟨u, hu⟩ := Dict.get?_isSome_of_mem_keys ((hA.keys y).2 (hdecl y hy))
        obtain ⟨d, hd, hud⟩ := hA.dom y u hu
        exact ⟨d, u, hd, hud, hu⟩)
      rw [val_of_ok _ _ hu] at hle
      exact ⟨z, hz, l, hl, fun y hy hne => (hagree y hy hne).trans (hsame y), u, hu, hle⟩
    · exfalso
      refine hbetter ?_
      rw [val_of_ok _ _ (show o.expr.eval w.heap.params τ2 = .ok v' by rw [eval_congr _ τ2 τ _ (fun z _ => hsame z)]; exact hv')] at hle
      rw [hfin] at hB
      cases hB
      exact hle
  · simp at hr
  · simp at hr

/-! ## Concrete cases -/

/-- `Minimize(x)` for `x` in `(1, 2, 3)`: the result is 3 and that is wrong, but everything was handed out. -/
example : optimalSolution (optimizeRun exArgs [minX] 12 world1) = some (.ok ⟨true, some [("x", 3)]⟩) ∧
    (optimizeRun exArgs [minX] 12 world1).1 = [[("x", 1)], [("x", 2)], [("x", 3)]] := by decide

theorem minX_valued (τ : Subst) (hτ : Assignment world1.model τ) : ∃ v, minX.expr.eval world1.heap.params τ = .ok v := by
  obtain ⟨u, hu⟩ := Dict.get?_isSome_of_mem_keys ((hτ.keys "x").2 rfl)
  exact ⟨u, by simp [minX, Expr.eval, hu]⟩

/-- The hypotheses of `C66_best` can be met, in this case, where C30 fails. -/
example : ∃ σ ∈ (optimizeRun exArgs [minX] 12 world1).1, ∃ v, minX.expr.eval world1.heap.params σ = .ok v ∧
    ∀ τ, IsSolution world1.model [] (optimizeRun exArgs [minX] 12 world1).2.2.heap τ →
      ∃ v', minX.expr.eval world1.heap.params τ = .ok v' ∧ v ≤ v' := by
  obtain ⟨σ, h1, _, v, h2, h3⟩ := C66_best world1_ok rfl ⟨"x", rfl⟩ (by intro c hc; cases hc) (fun _ => ⟨⟨_, rfl, by decide⟩, by decide⟩) minX_valued 12
    (by rfl) (by rfl) ⟨_, C30_refuted.2.2.1⟩
  exact ⟨σ, h1, v, h2, fun τ hτ => by simpa [Objective.le, minX] using h3 τ (by simpa [world1, exArgs] using hτ)⟩

/-- The hypotheses of `C66_covered` and `C66_single` can be met as well. -/
example : (∃ τ' ∈ (optimizeRun exArgs [minX] 12 world1).1, SameDict τ' [("x", 1)]) ∧
    Covered world1.heap.params [minX] (optimizeRun exArgs [minX] 12 world1).1 [("x", 1)] :=
  ⟨C66_single world1_ok rfl ⟨"x", rfl⟩ (fun _ => ⟨⟨_, rfl, by decide⟩, by decide⟩) 12 rfl (by rfl) (by rfl) _ C30_refuted.2.2.1 ⟨1, rfl⟩,
   C66_covered world1_ok rfl ⟨"x", rfl⟩ (fun _ o ho => by simp at ho; subst ho; exact ⟨⟨_, rfl, by decide⟩, by decide⟩) 12 (by rfl) (by rfl) _
    C30_refuted.2.2.1 (fun o ho => by simp at ho; subst ho; exact ⟨1, rfl⟩)⟩

theorem minXY_valued (m : Model) (ρ : Store) : minXY.Valued m ρ := by
  intro σ h
  obtain ⟨_, a, _, _, ha⟩ := h "x" (by decide)
  obtain ⟨_, b, _, _, hb⟩ := h "y" (by decide)
  exact ⟨_, xy_val ρ ha hb⟩

/-- `Minimize(x + y)` for `x`, `y` in `(0, 1)`: two of the four solutions are left out, and the result is not the best of the others. -/
example : (optimizeRun exArgs [minXY] 12 world2).1 = [[("y", 0), ("x", 0)], [("y", 0), ("x", 1)]] := by decide

/-- The hypotheses of `C66_result` can be met, in this case, where C30 fails. -/
example : ∃ τ' ∈ (optimizeRun exArgs [minXY] 12 world2).1, SameDict τ' [("x", 0), ("y", 0)] :=
  C66_result (world2_ok _ rfl) rfl ⟨"x", rfl⟩ (by decide) (fun _ => ⟨⟨10, rfl, by decide⟩, by decide⟩) (minXY_valued _ _) 12
    ⟨true, some [("y", 0), ("x", 1)]⟩ [("y", 0), ("x", 1)] C30_refuted_stale.2.1 rfl rfl 1 rfl _ C30_refuted_stale.2.2.1 0 rfl (by decide)

/-- The hypotheses of `C66_near` can be met in this case as well: the better solution differs in one variable from one that is not better. -/
example : ∃ z ∈ minXY.expr.vars, ∃ τ' ∈ (optimizeRun exArgs [minXY] 12 world2).1,
    (∀ y ∈ minXY.expr.vars, y ≠ z → τ'.get? y = Dict.get? [("x", 0), ("y", 0)] y) ∧ ∃ u, minXY.expr.eval world2.heap.params τ' = .ok u ∧ minXY.le 1 u :=
  C66_near (world2_ok _ rfl) rfl ⟨"x", rfl⟩ (by decide) (by intro c hc; cases hc) (fun _ => ⟨⟨10, rfl, by decide⟩, by decide⟩) (minXY_valued _ _) 12
    ⟨true, some [("y", 0), ("x", 1)]⟩ [("y", 0), ("x", 1)] C30_refuted_stale.2.1 rfl rfl 1 rfl _ C30_refuted_stale.2.2.1 0 rfl (by decide)

end Satisfy.Props
