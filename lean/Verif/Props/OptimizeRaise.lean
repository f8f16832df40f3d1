import Verif.Props.Optimize
import Verif.Lemmas.Raise
/-!
C28, C29: when `optimize` and `optimal_solution` raise.
-/

namespace Satisfy.Props

/-- The objective's constraint is compiled for some bound (and the parameters that the objective mentions), or interpreted. -/
def Prepared (w : World) (comp : Bool) (k : ObjCon) (s : Heap) : Prop :=
  if comp then ∃ ρ, (∀ i < w.heap.nparams, ρ i = w.heap.params i) ∧ s.fns k.con.id = some (asFunction ρ (boundExpr k.obj k.notSet k.bound))
  else s.fns k.con.id = none

theorem prepared_setBound {w w' : World} {k k' : ObjCon} (f : Fresh w w' k) (f' : Fresh w w' k') (hid : k.con.id = k'.con.id → k = k') {comp : Bool}
    {H s : Heap} (hpar : ∀ i < w.heap.nparams, H.params i = w.heap.params i) (hs : Steady w.heap H s) (h : Prepared w comp k s)
    (v : Int) : Prepared w comp k (k'.setBound v s) := by
  have hst := setBound_steady f' v s
  by_cases hne : k.con.id = k'.con.id
  · have hk := hid hne
    subst hk
    unfold Prepared at h ⊢
    cases comp with
    | false =>
      simp only [Bool.false_eq_true, if_false] at h ⊢
      unfold ObjCon.setBound
      simp only [Constraint.isCompiled, f.con, assign_fns, h, Option.isSome_none, Bool.false_eq_true, if_false]
    | true =>
      simp only [if_true] at h ⊢
      obtain ⟨ρ, _, hf⟩ := h
      refine ⟨(k.setBound v s).params, fun i hi => by rw [← hst.1 i hi, ← hs.1 i hi]; exact hpar i hi, ?_⟩
      unfold ObjCon.setBound
      simp only [Constraint.isCompiled, f.con, assign_fns, hf, Option.isSome_some, if_true]
      rw [compile_now _ _ _ f.con]
  · have hfn : (k'.setBound v s).fns k.con.id = s.fns k.con.id := by
      unfold ObjCon.setBound
      simp only
      split
      · rw [compile_fns_ne _ _ hne, assign_fns, assign_fns]
      · rw [assign_fns, assign_fns]
    unfold Prepared at h ⊢
    rw [hfn]; exact h

theorem prepared_total {a : SolveArgs} {os : List Objective} {w w' : World} {ks : List ObjCon} (hok : OptOk a os w) (hm : Made w os ks w')
    {k : ObjCon} (hk : k ∈ ks) (hsafe : a.solver.compile = true → k.obj.Safe w.heap.params) {s : Heap}
    (hpar : ∀ i < w.heap.nparams, s.params i = w.heap.params i) (h : Prepared w a.solver.compile k s) {σ : Subst} {v : Int}
    (hv : k.obj.expr.eval w.heap.params σ = .ok v) : ∃ r, k.con.evaluate s σ = .ok r := by
  have f := hm.fresh k hk
  have ho : k.obj ∈ os := by rw [← hm.objs]; exact List.mem_map.2 ⟨k, hk, rfl⟩
  obtain ⟨p, x, hp, _, _, _⟩ := f.notSet
  obtain ⟨q, y, hq, _, _, _⟩ := f.bound
  have hev : ∀ ρ : Store, (∀ i < w.heap.nparams, ρ i = w.heap.params i) → k.obj.expr.eval ρ σ = .ok v := fun ρ hρ => by
    rw [eval_params (fun i hi => hρ i (hok.objs k.obj ho i hi))]; exact hv
  have he := f.con
  unfold Prepared at h
  rw [hp, hq] at he h
  cases hc : a.solver.compile with
  | false =>
    rw [hc] at h
    simp only [Bool.false_eq_true, if_false] at h
    simp only [Constraint.evaluate, he, h]
    exact ⟨_, boundExpr_eval (hev _ hpar) p q x y⟩
  | true =>
    rw [hc] at h
    simp only [if_true] at h
    obtain ⟨ρ, hρ, hf⟩ := h
    obtain ⟨_, _, hcall, _⟩ := safe_compile (boundExpr_safe ((objective_safe_params (fun i hi => (hρ i (hok.objs k.obj ho i hi)).symm)).1 (hsafe hc)) p q x y)
    simp only [Constraint.evaluate, he, hf]
    exact ⟨_, hcall σ _ (boundExpr_eval (hev ρ hρ) p q x y)⟩

/-- The reasons for which `optimize` can raise `e`: those of `solve`, or an objective cannot be evaluated at values of the domains of its
variables. -/
inductive OptCause (a : SolveArgs) (os : List Objective) (w : World) (e : Err) : Prop
  | solve : Cause w.model (compileAll a.solver.compile (w.model.constraints ++ a.adds) w.heap) (w.model.constraints ++ a.adds) e → OptCause a os w e
  | objective (o : Objective) (σ : Subst) (e' : Err) : o ∈ os → Within w.model σ → (∀ x ∈ o.expr.vars, (w.model.domain? x).isSome → σ.get? x ≠ none) →
      o.expr.eval w.heap.params σ = .error e' → OptCause a os w e

/-- Constraints of the model are evaluated in `optimize` as in `solve`. -/
theorem opt_evaluate {a : SolveArgs} {os : List Objective} {w w' : World} {ks : List ObjCon} (hok : OptOk a os w) (hm : Made w os ks w')
    {c : Constraint} (hc : c ∈ w.model.constraints ++ a.adds) (σ : Subst) :
    c.evaluate (compileAll a.solver.compile (w'.model.constraints ++ (a.withObjectives ks).adds) w'.heap) σ =
      c.evaluate (compileAll a.solver.compile (w.model.constraints ++ a.adds) w.heap) σ := by
  have hold := hok.old c hc
  have hpar : ∀ e, c.kind = .expr e → ∀ i ∈ e.params,
      (compileAll a.solver.compile (w'.model.constraints ++ (a.withObjectives ks).adds) w'.heap).params i =
        (compileAll a.solver.compile (w.model.constraints ++ a.adds) w.heap).params i := by
    intro e he i hi
    rw [compileAll_params, compileAll_params, hm.params i (hold.2 e he i hi)]
  cases hcomp : a.solver.compile with
  | true =>
    rw [hcomp] at hpar
    refine evaluate_now_params (compileAll_now (made_solveOk hok hm).ids c ?_) (compileAll_now hok.solve.ids c hc) hpar σ
    simp only [SolveArgs.withObjectives, hm.cons]
    rcases List.mem_append.1 hc with h | h <;> simp [h]
  | false =>
    rw [hcomp] at hpar
    refine evaluate_params ?_ hpar σ
    simp only [compileAll, Bool.false_eq_true, if_false]
    exact hm.fns _ hold.1

theorem opt_error_con {a : SolveArgs} {os : List Objective} {w w' : World} {ks : List ObjCon} (hok : OptOk a os w) (hm : Made w os ks w')
    (hsafe : a.solver.compile = true → ∀ o ∈ os, o.Safe w.heap.params) {s : Heap}
    (hst : Steady w.heap (compileAll a.solver.compile (w'.model.constraints ++ (a.withObjectives ks).adds) w'.heap) s)
    (hpr : ∀ k ∈ ks, Prepared w a.solver.compile k s) {c : Constraint} (hc : c ∈ w'.model.constraints ++ (a.withObjectives ks).adds)
    {σ : Subst} (hw : Within w'.model σ) (hb : ∀ y ∈ c.vars, σ.get? y ≠ none) {e : Err} (he : c.evaluate s σ = .error e) : OptCause a os w e := by
  have hwithin : Within w.model σ := fun x v hx => by simpa only [made_domain hm] using hw x v hx
  simp only [SolveArgs.withObjectives, hm.cons, ← List.append_assoc] at hc
  rcases List.mem_append.1 hc with hc | hc
  · refine .solve (.con c σ hc hwithin hb ?_)
    rw [← opt_evaluate hok hm hc, steady_evaluate hst (hok.old c hc)]; exact he
  · obtain ⟨k, hk, rfl⟩ := List.mem_map.1 hc
    have ho : k.obj ∈ os := by rw [← hm.objs]; exact List.mem_map.2 ⟨k, hk, rfl⟩
    have f := hm.fresh k hk
    obtain ⟨p, x, hp, _, _, _⟩ := f.notSet
    obtain ⟨q, y, hq, _, _, _⟩ := f.bound
    have hkind := f.con
    rw [hp, hq] at hkind
    cases hv : k.obj.expr.eval w.heap.params σ with
    | error e' =>
      refine .objective k.obj σ e' ho hwithin (fun z hz _ => hb z ?_) hv
      simp only [Constraint.vars, CKind.vars, hkind]
      exact (mem_boundExpr_vars k.obj p q x y z).2 hz
    | ok v =>
      obtain ⟨r, hr⟩ := prepared_total hok hm hk (fun h => hsafe h k.obj ho) (fun i hi => by
        rw [← hst.1 i hi]; exact start_params (a := a) hm _ _ i hi) (hpr k hk) hv
      rw [hr] at he; cases he

theorem onSolution_error {ks : List ObjCon} : ∀ {s : Heap} {σ : Subst} {e : Err}, onSolution ks s σ = .error e →
    ∃ pre k post s', ks = pre ++ k :: post ∧ onSolution pre s σ = .ok s' ∧ k.obj.expr.eval s'.params σ = .error e := by
  induction ks with
  | nil => intro s σ e h; simp [onSolution] at h
  | cons k ks ih =>
    intro s σ e h
    simp only [onSolution, ObjCon.addSolution] at h
    cases hv : k.obj.expr.eval s.params σ with
    | error e' => rw [hv] at h; simp at h; subst h; exact ⟨[], k, ks, s, rfl, rfl, hv⟩
    | ok v =>
      rw [hv] at h
      simp only [ok_bind, pure_res] at h
      obtain ⟨pre, k', post, s', h1, h2, h3⟩ := ih h
      exact ⟨k :: pre, k', post, s', by simp [h1], by simp [onSolution, ObjCon.addSolution, hv, h2], h3⟩

theorem onSolution_prepared {w w' : World} {ks all : List ObjCon} (f : ∀ k ∈ all, Fresh w w' k) (hids : (all.map (·.con.id)).Nodup)
    (hsub : ∀ k ∈ ks, k ∈ all) {comp : Bool} {H : Heap} (hpar : ∀ i < w.heap.nparams, H.params i = w.heap.params i) :
    ∀ {s s' : Heap} {σ : Subst}, Steady w.heap H s → (∀ k ∈ all, Prepared w comp k s) → onSolution ks s σ = .ok s' →
      ∀ k ∈ all, Prepared w comp k s' := by
  induction ks with
  | nil => intro s s' σ _ hp h; simp only [onSolution, Except.ok.injEq] at h; subst h; exact hp
  | cons k' ks ih =>
    intro s s' σ hs hp h
    simp only [onSolution, ObjCon.addSolution, bind_eq_ok, pure_res, Except.ok.injEq] at h
    obtain ⟨s1, ⟨v, hv, rfl⟩, h⟩ := h
    have hk' := hsub k' (by simp)
    refine ih (fun k hk => hsub k (by simp [hk])) (hs.trans (setBound_steady (f k' hk') v s)) (fun k hk => ?_) h
    exact prepared_setBound (f k hk) (f k' hk') (fun hid => List.inj_on_of_nodup_map hids hk hk' hid) hpar hs (hp k hk) v

/-- C28, C29: an exception that leaves `optimize` or `optimal_solution` is one that `solve` could raise, or an objective could not be
evaluated at values of the domains. -/
theorem C28_raises {a : SolveArgs} {os : List Objective} {w : World} (hok : OptOk a os w)
    (hsafe : a.solver.compile = true → ∀ o ∈ os, o.Safe w.heap.params) (n : Nat) (e : Err)
    (hr : (optimizeRun a os n w).2.1.phase = .raised e) : OptCause a os w e := by
  obtain ⟨ks, w', hmk, hm⟩ := makeConstraints_spec os w hok.names
  have hok' := made_solveOk hok hm
  rw [optimizeRun_eq hmk] at hr
  simp only at hr
  have hn := hok'.wf.names
  have hprep : ∀ k ∈ ks, Prepared w a.solver.compile k
      (compileAll a.solver.compile (w'.model.constraints ++ (a.withObjectives ks).adds) w'.heap) := by
    intro k hk
    have h := ready_start hok hm hk
    unfold Ready at h
    unfold Prepared
    split
    · rename_i hc
      rw [if_pos hc] at h
      exact ⟨_, start_params (a := a) hm _ _, h _ (hm.fresh k hk).con⟩
    · rename_i hc
      rw [if_neg hc] at h
      exact h
  cases startCase (a := a.withObjectives ks) w'.model w'.heap hok'.shuffle with
  | idle h1 _ => rw [solveRun_idle (ph := .finished) trivial h1] at hr; simp [Gen.idle] at hr
  | fail e' h1 _ h3 =>
    rw [solveRun_idle (ph := .raised e') trivial h1] at hr
    simp [Gen.idle] at hr; subst hr
    have hcase : ∀ c ∈ w'.model.constraints ++ (a.withObjectives ks).adds, (∃ ns, c.kind = .allDiff ns) →
        c ∈ w.model.constraints ++ a.adds := by
      rintro c hc ⟨ns, hkind⟩
      simp only [SolveArgs.withObjectives, hm.cons, ← List.append_assoc] at hc
      rcases List.mem_append.1 hc with hc | hc
      · exact hc
      · obtain ⟨k, hk, rfl⟩ := List.mem_map.1 hc
        rw [(hm.fresh k hk).con] at hkind; cases hkind
    cases setup_error hn hok'.ids h3 with
    | con c σ hc hw hb he => exact opt_error_con hok hm hsafe (.refl _ _) hprep hc hw hb he
    | unknown c ns x hc hk hx hd he =>
      exact .solve (.unknown c ns x (hcase c hc ⟨ns, hk⟩) hk hx (by rw [← made_domain hm]; exact hd) he)
    | empty c hc hk he => exact .solve (.empty c (hcase c hc ⟨[], hk⟩) hk he)
  | go H info _ hset hst hne hp =>
    have hnd := hp.nodup_iff.2 (pureVars_nodup hn)
    obtain ⟨hH, hinv, _⟩ := setup_spec hok'.ids hset
    obtain ⟨N, hN, he⟩ := (run_first (a.withObjectives ks).cfg (candidates info) (onSolution ks) _ hne hnd ((a.withObjectives ks).clock 0) H).1
    rw [solveRun_eq, hst] at hr
    simp only at hr
    have hstab : sysRun (a.withObjectives ks).cfg (candidates info) (onSolution ks) n
          (Gen.first (orderVars (a.withObjectives ks).solver.policy (a.withObjectives ks).shuffle w'.model info) ((a.withObjectives ks).clock 0)) H =
        sysRun (a.withObjectives ks).cfg (candidates info) (onSolution ks) N
          (Gen.first (orderVars (a.withObjectives ks).solver.policy (a.withObjectives ks).shuffle w'.model info) ((a.withObjectives ks).clock 0)) H := by
      rcases Nat.le_total n N with hl | hl
      · exact (sysRun_stable _ _ _ hl _ _ (by rw [hr]; trivial)).symm
      · exact sysRun_stable _ _ _ hl _ _ hN
    rw [hstab] at hr
    have hH2 : H = compileAll a.solver.compile (w'.model.constraints ++ (a.withObjectives ks).adds) w'.heap := hH
    have hpar : ∀ i < w.heap.nparams, H.params i = w.heap.params i := by
      rw [hH]; exact start_params (a := a) hm _ _
    have hinv' := hinv
    cases he with
    | timeout _ h2 => rw [h2] at hr; cases hr
    | limit _ _ h2 => rw [h2] at hr; cases hr
    | natural h1 _ h3 h4 _ =>
      generalize hnames : orderVars (a.withObjectives ks).solver.policy (a.withObjectives ks).shuffle w'.model info = names at *
      cases hd : (dfs (candidates info) (onSolution ks) names [] H).2 with
      | ok s => rw [(h3 s (by rw [hd]; rfl)).1] at hr; cases hr
      | error e' =>
        rw [h4 e' (by rw [hd]; rfl)] at hr
        cases hr
        have := (dfs_error_at (Inv := fun s => Steady w.heap H s ∧ ∀ k ∈ ks, Prepared w a.solver.compile k s)
          (Q := fun rest σ => Within w'.model σ ∧ ∀ y ∈ names, y ∉ rest → Dict.get? σ y ≠ none) (names := names)
          (cand := candidates info) (act := onSolution ks)
          (fun s σ s' ⟨h1, h2⟩ _ h => ⟨h1.trans (onSolution_steady hm.fresh h), onSolution_prepared hm.fresh hm.ids (fun k hk => hk) hpar h1 h2 h⟩)
          (fun s x xs σ vs _ ⟨hq, hq2⟩ _ hc v hv => by
            obtain ⟨d, hd, hvs⟩ := candidates_dom hn hinv hc
            refine ⟨within_set hq hd (hvs v hv), fun y hy hny => ?_⟩
            by_cases hxy : x = y
            · subst hxy; rw [Dict.get?_set_self]; simp
            · rw [Dict.get?_set_ne _ _ hxy]
              exact hq2 y hy (by simp only [List.mem_cons, not_or]; exact ⟨fun h => hxy h.symm, hny⟩)) (e := e) names (fun _ h => h) [] H
          ⟨by intro x v hx; simp [Dict.get?] at hx, fun y hy hny => absurd hy hny⟩
          ⟨.refl _ _, by rw [hH2]; exact hprep⟩).2 hd
        rcases this with ⟨s, x, xs, σ, ⟨hs1, hs2⟩, ⟨hq, _⟩, hx, hc⟩ | ⟨s, σ, ⟨hs1, hs2⟩, ⟨hq, hq2⟩, hc⟩
        · obtain ⟨c, hcc, τ, _, h1, h2, h3⟩ := candidates_error hn hinv (hp.mem_iff.1 hx) hq hc
          exact opt_error_con hok hm hsafe (by rw [← hH2]; exact hs1) hs2 hcc h1 h2 h3
        · obtain ⟨pre, k, post, s', hks, hpre, hev⟩ := onSolution_error hc
          have hk : k ∈ ks := by rw [hks]; simp
          have ho : k.obj ∈ os := by rw [← hm.objs]; exact List.mem_map.2 ⟨k, hk, rfl⟩
          have hst' := hs1.trans (onSolution_steady (fun k hk => hm.fresh k (by rw [hks]; simp [hk])) hpre)
          refine .objective k.obj σ e ho (fun x v hx => by simpa only [made_domain hm] using hq x v hx) ?_ ?_
          · intro y _ hdom
            refine hq2 y ?_ (by simp)
            rw [hp.mem_iff, made_pureVars hm]
            obtain ⟨d, hd⟩ := Option.isSome_iff_exists.1 hdom
            rw [← pureVars_get? hok.solve.wf.names] at hd
            exact Dict.mem_keys_of_get? hd
          · rw [← eval_params (ρ := s'.params) (fun i hi => by
              have hi := hok.objs k.obj ho i hi
              rw [← hst'.1 i hi]; exact hpar i hi)]
            exact hev

/-- C29: if nothing can raise, `optimal_solution` returns. -/
theorem C29_returns {a : SolveArgs} {os : List Objective} {w : World} (hok : OptOk a os w)
    (hsafe : a.solver.compile = true → ∀ o ∈ os, o.Safe w.heap.params) (hno : ∀ e, ¬ OptCause a os w e) :
    ∃ r N, ∀ n ≥ N, optimalSolution (optimizeRun a os n w) = some (.ok r) := by
  obtain ⟨N, _, hst, hsome⟩ := C28_terminates hok
  obtain ⟨r, hr⟩ := Option.isSome_iff_exists.1 hsome
  cases r with
  | ok r => exact ⟨r, N, fun n hn => by rw [hst n hn]; exact hr⟩
  | error e =>
    unfold optimalSolution at hr
    split at hr
    · simp at hr
    · rename_i e' hp
      simp only [Option.some.injEq, Except.error.injEq] at hr
      subst hr
      exact absurd (C28_raises hok hsafe N _ hp) (hno _)
    · simp at hr

/-- The hypotheses can be met. -/
example : ∃ r N, ∀ n ≥ N, optimalSolution (optimizeRun exArgs [minXY] n world2) = some (.ok r) := by
  refine C29_returns (world2_ok minXY rfl) (fun _ o ho => by simp at ho; subst ho; exact ⟨⟨10, rfl, by decide⟩, by decide⟩) (fun e h => ?_)
  cases h with
  | solve h => cases h with
    | con c σ hc => cases hc
    | unknown c ns x hc => cases hc
    | empty c hc => cases hc
  | objective o σ e' ho _ hb he =>
    simp at ho; subst ho
    have hx := hb "x" (by decide) rfl
    have hy := hb "y" (by decide) rfl
    cases hx' : Dict.get? σ "x" with
    | none => exact hx hx'
    | some u =>
      cases hy' : Dict.get? σ "y" with
      | none => exact hy hy'
      | some v =>
        rw [show minXY.expr = .bin .add (.var "x") (.var "y") from rfl, xy_val _ hx' hy'] at he
        cases he

/-- An objective that cannot be evaluated: `Minimize(x / y)` for `x`, `y` in `(0, 1)` raises `ZeroDivisionError`. -/
example : optimalSolution (optimizeRun exArgs [⟨false, .bin .div (.var "x") (.var "y")⟩] 12 world2) = some (.error .zeroDivision) := by decide

end Satisfy.Props
