import Verif.Lemmas.BoundExpr
import Verif.Lemmas.Bound
import Verif.Lemmas.Natural
import Verif.Lemmas.Concrete
import Verif.Props.Reuse
/-!
C28-C31: `Solver.optimize` and `Solver.optimal_solution`.
-/

namespace Satisfy.Props

/-- What the theorems assume about a call of `optimize`: as for `solve`; the names in the model were made by the API;
the constraints and the objectives only mention objects that exist. -/
structure OptOk (a : SolveArgs) (os : List Objective) (w : World) : Prop where
  solve : SolveOk a w.model w.heap
  names : NameInv w.model.vars
  old : ∀ c ∈ w.model.constraints ++ a.adds, Old w.heap c
  objs : ∀ o ∈ os, ∀ i ∈ o.expr.params, i < w.heap.nparams

/-- Models built through the API meet the assumptions. -/
theorem optOk_of_history (a : SolveArgs) (hs : ∀ l, (a.shuffle l).Perm l) (ha : a.adds = []) (h : Heap) (cs : List Call)
    (hn : ∀ c ∈ cs, c.noObject) (os : List Objective)
    (hp : ∀ c ∈ (runCalls cs ⟨.empty, h⟩).model.constraints, ∀ e, c.kind = .expr e → ∀ i ∈ e.params, i < (runCalls cs ⟨.empty, h⟩).heap.nparams)
    (ho : ∀ o ∈ os, ∀ i ∈ o.expr.params, i < (runCalls cs ⟨.empty, h⟩).heap.nparams) :
    OptOk a os (runCalls cs ⟨.empty, h⟩) := by
  refine ⟨solveOk_of_history a hs ha h cs hn, runCalls_inv cs _ emptyInv, ?_, ho⟩
  rw [ha, List.append_nil]
  exact fun c hc => ⟨(model_ids h cs hn).lt c hc, hp c hc⟩

theorem made_solveOk {a : SolveArgs} {os : List Objective} {w w' : World} {ks : List ObjCon} (hok : OptOk a os w) (hm : Made w os ks w') :
    SolveOk (a.withObjectives ks) w'.model w'.heap := by
  have hmem : ∀ c ∈ w'.model.constraints ++ (a.withObjectives ks).adds, c ∈ w.model.constraints ++ a.adds ∨ ∃ k ∈ ks, c = k.con := by
    intro c hc
    simp only [SolveArgs.withObjectives, hm.cons, List.mem_append, List.mem_map] at hc ⊢
    rcases hc with h | h | ⟨k, hk, rfl⟩
    · exact .inl (.inl h)
    · exact .inl (.inr h)
    · exact .inr ⟨k, hk, rfl⟩
  refine ⟨hok.solve.shuffle, ⟨hm.inv.1, ?_⟩, ?_, ?_⟩
  · intro x d hx; rw [made_domain hm] at hx; exact hok.solve.wf.doms x d hx
  · intro c hc c' hc' hid
    rcases hmem c hc with h | ⟨k, hk, rfl⟩ <;> rcases hmem c' hc' with h' | ⟨k', hk', rfl⟩
    · exact hok.solve.ids c h c' h' hid
    · have := (hok.old c h).1; have := (hm.fresh k' hk').idLo; omega
    · have := (hok.old c' h').1; have := (hm.fresh k hk).idLo; omega
    · rw [List.inj_on_of_nodup_map hm.ids hk hk' hid]
  · intro c hc
    rcases hmem c hc with h | ⟨k, hk, rfl⟩
    · intro e f he hf
      rw [hm.fns _ (hok.old c h).1] at hf
      exact hok.solve.fns c h e f he hf
    · intro e f _ hf
      rw [(hm.fresh k hk).fns] at hf; cases hf

/-! ## C28 -/

/-- The heap at the end agrees with the one in which the search started, on the old objects. -/
theorem opt_steady {a : SolveArgs} {os : List Objective} {w w' : World} {ks : List ObjCon} (hm : Made w os ks w') (n : Nat) :
    Steady w.heap (startSolve (a.withObjectives ks) w'.model w'.heap).1
      (solveRun (a.withObjectives ks) w'.model (onSolution ks) n w'.heap).2.2 := by
  rw [solveRun_eq]
  exact sysRun_inv (Inv := Steady w.heap (startSolve (a.withObjectives ks) w'.model w'.heap).1) _ _
    (fun s σ s' h1 h2 => h1.trans (onSolution_steady hm.fresh h2)) n _ _ (.refl _ _)

theorem opt_sound {a : SolveArgs} {os : List Objective} {w : World} (hok : OptOk a os w) (n : Nat) :
    ∀ τ ∈ (optimizeRun a os n w).1, Assignment w.model τ ∧
      ∀ c ∈ w.model.constraints ++ a.adds, Over w.model c → Holds (optimizeRun a os n w).2.2.heap c τ := by
  obtain ⟨ks, w', hmk, hm⟩ := makeConstraints_spec os w hok.names
  have hok' := made_solveOk hok hm
  have hst := opt_steady (a := a) hm n
  rw [optimizeRun_eq hmk]
  simp only
  intro τ hτ
  suffices h : Assignment w'.model τ ∧ ∀ c ∈ w.model.constraints ++ a.adds, Over w'.model c →
      Holds (startSolve (a.withObjectives ks) w'.model w'.heap).1 c τ by
    refine ⟨(made_assignment hm τ).1 h.1, fun c hc ho => ?_⟩
    obtain ⟨r, hr, h0⟩ := h.2 c hc ((made_over hm c).2 ho)
    exact ⟨r, by rw [← steady_evaluate hst (hok.old c hc)]; exact hr, h0⟩
  clear hst
  cases startCase (a := a.withObjectives ks) w'.model w'.heap hok'.shuffle with
  | idle h1 _ => rw [solveRun_idle (ph := .finished) trivial h1] at hτ; simp at hτ
  | fail e h1 _ _ => rw [solveRun_idle (ph := .raised e) trivial h1] at hτ; simp at hτ
  | go H info hsol hset hst hne hp =>
    obtain ⟨hH, hinv, _⟩ := setup_spec hok'.ids hset
    have hnd := hp.nodup_iff.2 (pureVars_nodup hok'.wf.names)
    rw [solveRun_eq, hst] at hτ
    have hpre := (run_first (a.withObjectives ks).cfg (candidates info) (onSolution ks) _ hne hnd ((a.withObjectives ks).clock 0) H).2 n
    have hτ := hpre.subset hτ
    have hpath := (dfs_sound (Inv := Steady w.heap H) (P := Accepts info H (Old w.heap)) (act := onSolution ks)
      (cand := candidates info) (fun s σ s' h1 h2 => h1.trans (onSolution_steady hm.fresh h2))
      (fun s x σ vs hs hvs => accepts_of_candidates (fun _ c _ hc σ => steady_evaluate hs.symm hc σ) hvs)
      _ [] H (.refl _ _)).1 τ hτ
    rw [← hH] at hinv
    obtain ⟨h1, h2⟩ := path_sound hok'.wf.names hinv hp hpath
    rw [hst]
    refine ⟨h1, fun c hc ho => ?_⟩
    have hc' : c ∈ w'.model.constraints ++ (a.withObjectives ks).adds := by
      simp only [SolveArgs.withObjectives, hm.cons]
      rcases List.mem_append.1 hc with h | h <;> simp [h]
    exact h2 c hc' ho (by rw [hH]; exact compileAll_fnOk _ hok'.ids hok'.fns c hc') (.inr (.inr (hok.old c hc)))

/-- C28: at every point of the iteration, everything produced is a solution of the model (and of the additional
constraints). -/
theorem C28_sound {a : SolveArgs} {os : List Objective} {w : World} (hok : OptOk a os w)
    (hover : ∀ c ∈ w.model.constraints ++ a.adds, Over w.model c) (n : Nat) :
    ∀ τ ∈ (optimizeRun a os n w).1, IsSolution w.model (w.model.constraints ++ a.adds) (optimizeRun a os n w).2.2.heap τ := by
  intro τ hτ
  obtain ⟨h1, h2⟩ := opt_sound hok n τ hτ
  exact ⟨h1, fun c hc => h2 c hc (hover c hc)⟩

/-- The parameters the constraints may mention keep their values. -/
theorem opt_params {a : SolveArgs} {os : List Objective} {w : World} (hok : OptOk a os w) (n : Nat) (i : Nat) (hi : i < w.heap.nparams) :
    (optimizeRun a os n w).2.2.heap.params i = w.heap.params i := by
  obtain ⟨ks, w', hmk, hm⟩ := makeConstraints_spec os w hok.names
  rw [optimizeRun_eq hmk]
  simp only
  rw [← (opt_steady hm n).1 i hi]
  obtain ⟨pre, _, _, hh⟩ := startSolve_heap (a.withObjectives ks) w'.model w'.heap
  rw [hh, compileAll_params, hm.params i hi]

/-- C28, no two solutions are equal. -/
theorem C28_distinct {a : SolveArgs} {os : List Objective} {w : World} (hok : OptOk a os w) (n : Nat) :
    (optimizeRun a os n w).1.Pairwise (fun σ τ => ¬ SameDict σ τ) := by
  obtain ⟨ks, w', hmk, hm⟩ := makeConstraints_spec os w hok.names
  rw [optimizeRun_eq hmk]
  simp only
  obtain ⟨names, _, _, hs⟩ := run_sorted (made_solveOk hok hm) (onSolution ks) n
  refine hs.imp ?_
  rintro σ τ ⟨pre, x, post, v, w, _, _, hv, hw, hlt⟩ hsame
  rw [hsame x, hw] at hv
  cases hv
  exact Nat.lt_irrefl _ hlt

/-- C28, the iteration ends: `optimal_solution` returns or raises. -/
theorem C28_terminates {a : SolveArgs} {os : List Objective} {w : World} (hok : OptOk a os w) :
    ∃ N, (optimizeRun a os N w).2.1.phase.terminal ∧ (∀ n ≥ N, optimizeRun a os n w = optimizeRun a os N w) ∧
      (optimalSolution (optimizeRun a os N w)).isSome := by
  obtain ⟨ks, w', hmk, hm⟩ := makeConstraints_spec os w hok.names
  have hok' := made_solveOk hok hm
  obtain ⟨N, hN, hst⟩ := C17_terminates (a.withObjectives ks) hok'.shuffle w'.model hok'.wf.names (onSolution ks) w'.heap
  refine ⟨N, ?_, fun n hn => ?_, ?_⟩
  · rw [optimizeRun_eq hmk]; exact hN
  · rw [optimizeRun_eq hmk, optimizeRun_eq hmk, hst n hn]
  · rw [optimizeRun_eq hmk]
    unfold optimalSolution
    simp only
    revert hN
    cases (solveRun (a.withObjectives ks) w'.model (onSolution ks) N w'.heap).2.1.phase <;> simp [Phase.terminal]

/-! ## C29 -/

/-- The objective's constraint is evaluated as written: compiled for the current bound, or interpreted. -/
def Ready (comp : Bool) (k : ObjCon) (s : Heap) : Prop := if comp then FnNow s k.con else s.fns k.con.id = none

theorem ready_start {a : SolveArgs} {os : List Objective} {w w' : World} {ks : List ObjCon} (hok : OptOk a os w) (hm : Made w os ks w')
    {k : ObjCon} (hk : k ∈ ks) :
    Ready a.solver.compile k (compileAll a.solver.compile (w'.model.constraints ++ (a.withObjectives ks).adds) w'.heap) := by
  unfold Ready
  cases hc : a.solver.compile with
  | true =>
    exact compileAll_now (made_solveOk hok hm).ids k.con (by simp [SolveArgs.withObjectives]; exact .inr (.inr ⟨k, hk, rfl⟩))
  | false => exact (hm.fresh k hk).fns

theorem ready_setBound {comp : Bool} {k : ObjCon} {e : Expr} (hk : k.con.kind = .expr e) {s : Heap} (hr : Ready comp k s) (v : Int) :
    Ready comp k (k.setBound v s) := by
  unfold Ready at hr ⊢
  unfold ObjCon.setBound
  simp only [Constraint.isCompiled, hk, assign_fns]
  cases comp with
  | true =>
    have := hr e hk
    simp only [this, if_true, Option.isSome_some]
    exact compile_now _ _
  | false =>
    simp only [Bool.false_eq_true, if_false] at hr
    simp [hr, assign_fns]

/-- The value of the objective's constraint. -/
theorem con_evaluate {w w' : World} {k : ObjCon} (f : Fresh w w' k) {comp : Bool} {s : Heap} (hr : Ready comp k s)
    (hsafe : comp = true → k.obj.Safe s.params) {p q : Nat} {x y : Name} (hp : k.notSet = .param p x) (hq : k.bound = .param q y)
    {σ : Subst} {v : Int} (hv : k.obj.expr.eval s.params σ = .ok v) :
    k.con.evaluate s σ = .ok (pyOr (s.params p) (ofBool (k.obj.cmp.holds v (s.params q)))) := by
  have he := f.con
  rw [hp, hq] at he
  have hev := boundExpr_eval hv p q x y
  unfold Ready at hr
  cases comp with
  | false =>
    simp only [Bool.false_eq_true, if_false] at hr
    simp only [Constraint.evaluate, he, hr, hev]
  | true =>
    have hfn := hr _ he
    obtain ⟨_, _, hcall, _⟩ := safe_compile (boundExpr_safe (hsafe rfl) p q x y)
    simp only [Constraint.evaluate, he, hfn, hcall σ _ hev]

theorem safe_old {a : SolveArgs} {os : List Objective} {w : World} (hok : OptOk a os w) {o : Objective} (ho : o ∈ os) {s : Heap}
    (hs : ∀ i < w.heap.nparams, s.params i = w.heap.params i) :
    (o.Safe w.heap.params ↔ o.Safe s.params) ∧ ∀ σ, o.expr.eval s.params σ = o.expr.eval w.heap.params σ :=
  ⟨objective_safe_params (fun i hi => (hs i (hok.objs o ho i hi)).symm),
   fun σ => eval_params (fun i hi => hs i (hok.objs o ho i hi)) σ⟩

/-- The heap in which the search of `optimize` starts has the old values of the old parameters. -/
theorem start_params {a : SolveArgs} {os : List Objective} {w w' : World} {ks : List ObjCon} (hm : Made w os ks w') (comp : Bool) (cs : List Constraint) :
    ∀ i < w.heap.nparams, (compileAll comp cs w'.heap).params i = w.heap.params i := by
  intro i hi; rw [compileAll_params, hm.params i hi]

theorem opt_complete {a : SolveArgs} {os : List Objective} {w : World} (hok : OptOk a os w) (hsol : w.model.solvable = true)
    (hvar : ∃ x, (w.model.domain? x).isSome) (hsafe : a.solver.compile = true → ∀ o ∈ os, o.Safe w.heap.params) (n : Nat)
    (hend : (optimizeRun a os n w).2.1.phase = .finished) (hint : (optimizeRun a os n w).2.1.interrupt = none)
    (τ : Subst) (hτ : IsSolution w.model (w.model.constraints ++ a.adds) (optimizeRun a os n w).2.2.heap τ)
    (hval : ∀ o ∈ os, ∃ v, o.expr.eval w.heap.params τ = .ok v) : (optimizeRun a os n w).1 ≠ [] := by
  obtain ⟨ks, w', hmk, hm⟩ := makeConstraints_spec os w hok.names
  have hok' := made_solveOk hok hm
  rw [optimizeRun_eq hmk] at hend hint hτ ⊢
  simp only at hend hint hτ ⊢
  obtain ⟨H, info, hset, _, hperm, houts, hlast⟩ := run_natural (a := a.withObjectives ks) hok'.shuffle hok'.wf.names
    (by rw [hm.solvable]; exact hsol) (by simpa only [made_domain hm] using hvar) (onSolution ks) hend hint
  intro hnil
  rw [houts] at hnil
  have hpas := dfs_no_output passive _ _ _ hnil
  have hfin : (solveRun (a.withObjectives ks) w'.model (onSolution ks) n w'.heap).2.2 = H := by
    rcases dfs_last _ _ _ _ hlast with ⟨_, h⟩ | ⟨pre, τ, s1, h, _⟩
    · exact h
    · rw [h] at hnil; simp at hnil
  rw [hfin] at hτ hlast
  obtain ⟨hH, hinv, had⟩ := setup_spec hok'.ids hset
  rw [← hH] at hinv
  have hpar : ∀ i < w.heap.nparams, H.params i = w.heap.params i := by
    rw [hH]; exact start_params (a := a) hm _ _
  have hsol' : IsSolution w'.model (w'.model.constraints ++ (a.withObjectives ks).adds) H τ := by
    refine ⟨(made_assignment hm τ).2 hτ.toAssignment, fun c hc => ?_⟩
    simp only [SolveArgs.withObjectives, hm.cons, ← List.append_assoc] at hc
    rcases List.mem_append.1 hc with hc | hc
    · exact hτ.con c hc
    · obtain ⟨k, hk, rfl⟩ := List.mem_map.1 hc
      have f := hm.fresh k hk
      obtain ⟨p, x, hp, _, _, hp1⟩ := f.notSet
      obtain ⟨q, y, hq, _, _, _⟩ := f.bound
      have ho : k.obj ∈ os := by rw [← hm.objs]; exact List.mem_map.2 ⟨k, hk, rfl⟩
      obtain ⟨hs1, hs2⟩ := safe_old hok ho hpar
      obtain ⟨v, hv⟩ := hval k.obj ho
      rw [← hs2] at hv
      have hrd := ready_start hok hm hk
      rw [show a.solver.compile = (a.withObjectives ks).solver.compile from rfl, ← hH] at hrd
      refine ⟨_, con_evaluate f hrd (fun hc => hs1.1 (hsafe hc k.obj ho)) hp hq hv, ?_⟩
      rw [pyOr_bound, hH, compileAll_params, hp1]
      intro h; simp at h
  obtain ⟨τ', hpath, _⟩ := path_complete hok'.wf.names hinv
    (fun c hc => by rw [hH]; exact compileAll_fnOk _ hok'.ids hok'.fns c hc) hperm had hsol'
  rw [hpas] at hlast hnil
  have := (dfs_complete (act := passive) (fun σ => rfl) _ [] H hlast).2 τ' hpath
  rw [hnil] at this
  simp at this

/-- C29: an optimisation that was not interrupted returns `solution=None` exactly when the model has no solution. -/
theorem C29_solution {a : SolveArgs} {os : List Objective} {w : World} (hok : OptOk a os w) (hsol : w.model.solvable = true)
    (hvar : ∃ x, (w.model.domain? x).isSome) (hover : ∀ c ∈ w.model.constraints ++ a.adds, Over w.model c)
    (hsafe : a.solver.compile = true → ∀ o ∈ os, o.Safe w.heap.params)
    (hval : ∀ o ∈ os, ∀ τ, Assignment w.model τ → ∃ v, o.expr.eval w.heap.params τ = .ok v) (n : Nat) (r : OptSolution)
    (hr : optimalSolution (optimizeRun a os n w) = some (.ok r)) (hint : (optimizeRun a os n w).2.1.interrupt = none) :
    r.solution = none ↔ ¬ ∃ τ, IsSolution w.model (w.model.constraints ++ a.adds) (optimizeRun a os n w).2.2.heap τ := by
  unfold optimalSolution at hr
  split at hr
  · rename_i hend
    simp only [Option.some.injEq, Except.ok.injEq] at hr
    subst hr
    simp only [List.getLast?_eq_none_iff]
    constructor
    · rintro hnil ⟨τ, hτ⟩
      exact opt_complete hok hsol hvar hsafe n hend hint τ hτ (fun o ho => hval o ho τ hτ.toAssignment) hnil
    · intro hno
      by_contra hne
      obtain ⟨τ, hτ⟩ := List.exists_mem_of_ne_nil _ hne
      exact hno ⟨τ, C28_sound hok hover n τ hτ⟩
  · simp at hr
  · simp at hr

/-- C29, the flag: `is_optimal` is false when nothing was found or the search was interrupted; what is returned was produced by
`optimize`. -/
theorem C29_flag (a : SolveArgs) (os : List Objective) (w : World) (n : Nat) (r : OptSolution)
    (hr : optimalSolution (optimizeRun a os n w) = some (.ok r)) :
    (r.isOptimal = true ↔ r.solution ≠ none ∧ (optimizeRun a os n w).2.1.interrupt = none) ∧
    ∀ τ, r.solution = some τ → τ ∈ (optimizeRun a os n w).1 := by
  unfold optimalSolution at hr
  split at hr
  · simp only [Option.some.injEq, Except.ok.injEq] at hr
    subst hr
    simp only [ne_eq, List.getLast?_eq_none_iff, decide_eq_true_eq]
    refine ⟨trivial, fun τ hτ => List.mem_of_getLast? hτ⟩
  · simp at hr
  · simp at hr

/-! ## C30 -/

theorem last_split (names V : List Name) (h : ∃ x ∈ names, x ∈ V) :
    ∃ pre x post, names = pre ++ x :: post ∧ x ∈ V ∧ ∀ y ∈ post, y ∉ V := by
  induction names with
  | nil => simp at h
  | cons z names ih =>
    by_cases h' : ∃ x ∈ names, x ∈ V
    · obtain ⟨pre, x, post, rfl, h1, h2⟩ := ih h'
      exact ⟨z :: pre, x, post, rfl, h1, h2⟩
    · obtain ⟨x, hx, hV⟩ := h
      rcases List.mem_cons.1 hx with rfl | hx
      · exact ⟨[], x, names, rfl, hV, fun y hy hyV => h' ⟨y, hy, hyV⟩⟩
      · exact absurd ⟨x, hx, hV⟩ h'

theorem onSolution_one {k : ObjCon} {s s' : Heap} {σ : Subst} (h : onSolution [k] s σ = .ok s') :
    ∃ v, k.obj.expr.eval s.params σ = .ok v ∧ k.setBound v s = s' := by
  simp only [onSolution, ObjCon.addSolution, bind_eq_ok, pure_res, Except.ok.injEq] at h
  obtain ⟨s1, ⟨v, hv, rfl⟩, rfl⟩ := h
  exact ⟨v, hv, rfl⟩

/-- The bound currently in force. -/
def bndOf (p q : Nat) (s : Heap) : Option Int := if s.params p = 0 then some (s.params q) else none

theorem opt_bb0 {a : SolveArgs} {o : Objective} {w w' : World} {k : ObjCon} (hok : OptOk a [o] w) (hm : Made w [o] [k] w')
    (hobj : k.obj = o) (hsafe : a.solver.compile = true → o.Safe w.heap.params)
    {H : Heap} {info : Info}
    (hpar : ∀ i < w.heap.nparams, H.params i = w.heap.params i)
    (hinv : SetupInv w'.model H (w'.model.constraints ++ (a.withObjectives [k]).adds) info)
    {p q : Nat} {x y : Name} (hp : k.notSet = .param p x) (hq : k.bound = .param q y) (hpq : p ≠ q)
    {xj : Name} (hxj : xj ∈ o.expr.vars) :
    BB0 (candidates info) (onSolution [k]) o (Accepts info H (Old w.heap)) (InDom w.model)
      (fun s => Steady w.heap H s ∧ Ready a.solver.compile k s) (bndOf p q) (fun σ => o.expr.val w.heap.params σ) o.expr.vars xj := by
  have f := hm.fresh k (by simp)
  have hkind := f.con
  rw [hp, hq, hobj] at hkind
  have hkvars : ∀ z, z ∈ k.con.vars ↔ z ∈ o.expr.vars := by
    intro z; simp only [Constraint.vars, CKind.vars, hkind]; exact mem_boundExpr_vars o p q x y z
  have hnm : w'.model.vars.keys.Nodup := hm.inv.1
  have hevals : ∀ s, Steady w.heap H s → ∀ σ, o.expr.eval s.params σ = o.expr.eval w.heap.params σ := by
    intro s hs σ
    exact (safe_old hok (by simp) (fun i hi => by rw [← hs.1 i hi]; exact hpar i hi)).2 σ
  have hsafes : ∀ s, Steady w.heap H s → a.solver.compile = true → o.Safe s.params := by
    intro s hs hc
    exact (safe_old hok (by simp) (fun i hi => by rw [← hs.1 i hi]; exact hpar i hi)).1.1 (hsafe hc)
  have hdom : ∀ z d, info.vars.get? z = some d → ∃ d0, w.model.domain? z = some d0 ∧ d.Sublist d0 := by
    intro z d hd
    obtain ⟨d0, hd0, hsub, _⟩ := hinv.dom z d hd
    rw [pureVars_get? hnm, made_domain hm] at hd0
    exact ⟨d0, hd0, hsub⟩
  have hcase : ∀ z, ∀ c ∈ info.cons z, Old w.heap c ∨ c = k.con := by
    intro z c hc
    rw [hinv.cons] at hc
    have hc := (List.mem_filter.1 hc).1
    simp only [SolveArgs.withObjectives, hm.cons, ← List.append_assoc, List.mem_append, List.map_cons, List.map_nil,
      List.mem_cons, List.not_mem_nil, or_false] at hc
    rcases hc with hc | hc
    · exact .inl (hok.old c (by simpa using hc))
    · exact .inr hc
  have hkold : ¬ Old w.heap k.con := fun h => by have := h.1; have := f.idLo; omega
  constructor
  · rintro s τ s' ⟨hs, hr⟩ _ _ hact
    obtain ⟨v, hv, rfl⟩ := onSolution_one hact
    refine ⟨⟨hs.trans (setBound_steady f v s), ready_setBound f.con hr v⟩, ?_⟩
    rw [hobj, hevals s hs] at hv
    unfold bndOf
    rw [setBound_params hp hq, val_of_ok _ _ hv]
    simp [hpq]
  · intro z σ v hQ hacc
    obtain ⟨⟨d, hd, hvd⟩, _⟩ := hacc
    obtain ⟨d0, hd0, hsub⟩ := hdom z d hd
    exact inDom_set hQ ⟨d0, hd0, hsub.mem hvd⟩
  · intro σ τ h
    unfold Expr.val
    rw [eval_congr _ _ _ _ h]
  · rintro s z σ vs ⟨hs, hr⟩ hz hc v
    obtain ⟨d, hd, hsub, hmem⟩ := candidates_ok hc
    constructor
    · exact accepts_of_candidates (fun _ c _ hc σ => steady_evaluate hs.symm hc σ) hc v
    · rintro ⟨⟨d', hd', hv⟩, had, hcons⟩
      rw [hd] at hd'; cases hd'
      refine (hmem v).2 ⟨hv, acceptable_true.2 ⟨had, fun c hcz => ?_⟩⟩
      rcases hcase z c hcz with ho | rfl
      · rw [← unsatisfied_eq_of_evaluate (steady_evaluate hs ho _)]; exact hcons c hcz ho
      · have hzc : z ∈ o.expr.vars := by
          rw [hinv.cons] at hcz
          have := (List.mem_filter.1 hcz).2
          simp only [Bool.and_eq_true, decide_eq_true_eq] at this
          exact (hkvars z).1 this.2
        rcases hz with hz | ⟨hne, hnone⟩
        · exact absurd hzc hz
        · exact unsat_of_missing ((hkvars xj).2 hxj) (by rw [Dict.get?_set_ne _ _ hne]; exact hnone)

theorem opt_bb {a : SolveArgs} {o : Objective} {w w' : World} {k : ObjCon} (hok : OptOk a [o] w) (hm : Made w [o] [k] w')
    (hobj : k.obj = o) (hlen : o.expr.vars.length ≠ 1) (hsafe : a.solver.compile = true → o.Safe w.heap.params)
    (hval : o.Valued w.model w.heap.params) {H : Heap} {info : Info}
    (hpar : ∀ i < w.heap.nparams, H.params i = w.heap.params i)
    (hinv : SetupInv w'.model H (w'.model.constraints ++ (a.withObjectives [k]).adds) info)
    {p q : Nat} {x y : Name} (hp : k.notSet = .param p x) (hq : k.bound = .param q y) (hpq : p ≠ q)
    {xj : Name} (hxj : xj ∈ o.expr.vars) (himp : o.Improving w.model w.heap.params xj) :
    BB (candidates info) (onSolution [k]) o (Accepts info H (Old w.heap)) (InDom w.model)
      (fun s => Steady w.heap H s ∧ Ready a.solver.compile k s) (bndOf p q) (fun σ => o.expr.val w.heap.params σ) o.expr.vars xj := by
  have f := hm.fresh k (by simp)
  have hkind := f.con
  rw [hp, hq, hobj] at hkind
  have hkvars : ∀ z, z ∈ k.con.vars ↔ z ∈ o.expr.vars := by
    intro z; simp only [Constraint.vars, CKind.vars, hkind]; exact mem_boundExpr_vars o p q x y z
  have hnm : w'.model.vars.keys.Nodup := hm.inv.1
  have hevals : ∀ s, Steady w.heap H s → ∀ σ, o.expr.eval s.params σ = o.expr.eval w.heap.params σ := by
    intro s hs σ
    exact (safe_old hok (by simp) (fun i hi => by rw [← hs.1 i hi]; exact hpar i hi)).2 σ
  have hsafes : ∀ s, Steady w.heap H s → a.solver.compile = true → o.Safe s.params := by
    intro s hs hc
    exact (safe_old hok (by simp) (fun i hi => by rw [← hs.1 i hi]; exact hpar i hi)).1.1 (hsafe hc)
  have hdom : ∀ z d, info.vars.get? z = some d → ∃ d0, w.model.domain? z = some d0 ∧ d.Sublist d0 := by
    intro z d hd
    obtain ⟨d0, hd0, hsub, _⟩ := hinv.dom z d hd
    rw [pureVars_get? hnm, made_domain hm] at hd0
    exact ⟨d0, hd0, hsub⟩
  have hcase : ∀ z, ∀ c ∈ info.cons z, Old w.heap c ∨ c = k.con := by
    intro z c hc
    rw [hinv.cons] at hc
    have hc := (List.mem_filter.1 hc).1
    simp only [SolveArgs.withObjectives, hm.cons, ← List.append_assoc, List.mem_append, List.map_cons, List.map_nil,
      List.mem_cons, List.not_mem_nil, or_false] at hc
    rcases hc with hc | hc
    · exact .inl (hok.old c (by simpa using hc))
    · exact .inr hc
  refine { toBB0 := opt_bb0 hok hm hobj hsafe hpar hinv hp hq hpq hxj, cand_last := ?_ }
  · rintro s σ vs ⟨hs, hr⟩ hQ hb hnone hc
    obtain ⟨d, hd, hsub, hmem⟩ := candidates_ok hc
    obtain ⟨d0, hd0, hsub0⟩ := hdom xj d hd
    have hbound : ∀ v ∈ d0, ∃ r, o.expr.eval w.heap.params (σ.set xj v) = .ok r := by
      intro v hv
      refine hval _ (fun z hz => ?_)
      by_cases hzx : z = xj
      · subst hzx; exact ⟨d0, v, hd0, hv, by simp [Dict.get?_set]⟩
      · obtain ⟨u, hu⟩ := Option.ne_none_iff_exists'.1 (hb z hz hzx)
        obtain ⟨dz, hdz, huz⟩ := hQ z u hu
        exact ⟨dz, u, hdz, huz, by rw [Dict.get?_set_ne _ _ (Ne.symm hzx)]; exact hu⟩
    have hkin : k.con ∈ info.cons xj := by
      rw [hinv.cons, List.mem_filter]
      refine ⟨by simp [SolveArgs.withObjectives], ?_⟩
      have h1 : k.con.isAD = false := by simp [Constraint.isAD, hkind]
      have h2 : k.con.vars.length ≠ 1 := by
        simp only [Constraint.vars, CKind.vars, hkind, boundExpr_vars_length]; exact hlen
      simp [h1, h2, (hkvars xj).2 hxj]
    have hkun : ∀ v ∈ d0, (k.con.unsatisfied s (σ.set xj v) = .ok false ↔
        ∀ B, bndOf p q s = some B → ¬ o.le B (o.expr.val w.heap.params (σ.set xj v))) := by
      intro v hv
      obtain ⟨r, hrv⟩ := hbound v hv
      rw [unsat_of_bound (fun z hz => by
        by_cases hzx : z = xj
        · subst hzx; simp [Dict.get?_set]
        · rw [Dict.get?_set_ne _ _ (Ne.symm hzx)]; exact hb z ((hkvars z).1 hz) hzx)]
      rw [con_evaluate f hr (fun hc => by rw [hobj]; exact hsafes s hs hc) hp hq
        (v := r) (by rw [hobj, hevals s hs]; exact hrv)]
      have hpb := pyOr_bound o (s.params p) r (s.params q)
      rw [hobj, val_of_ok _ _ hrv]
      simp only [ok_bind, pure_res, Except.ok.injEq, Bool.not_eq_false', truthy, bndOf, bne_iff_ne, decide_eq_true_eq]
      rw [hpb]
      constructor
      · intro h B hB
        split at hB
        · cases hB; exact h (by assumption)
        · cases hB
      · intro h h0; exact h _ (by rw [if_pos h0])
    refine ⟨fun v => ⟨fun hv => ?_, ?_⟩, ?_⟩
    · refine ⟨accepts_of_candidates (fun _ c _ hc σ => steady_evaluate hs.symm hc σ) hc v hv, ?_⟩
      obtain ⟨h1, h2⟩ := (hmem v).1 hv
      exact (hkun v (hsub0.mem h1)).1 ((acceptable_true.1 h2).2 _ hkin)
    · rintro ⟨⟨⟨d', hd', hv⟩, had, hcons⟩, hB⟩
      rw [hd] at hd'; cases hd'
      refine (hmem v).2 ⟨hv, acceptable_true.2 ⟨had, fun c hcz => ?_⟩⟩
      rcases hcase xj c hcz with ho | rfl
      · rw [← unsatisfied_eq_of_evaluate (steady_evaluate hs ho _)]; exact hcons c hcz ho
      · exact (hkun v (hsub0.mem hv)).2 hB
    · have hpw := himp σ (fun z hz hzx => by
        obtain ⟨u, hu⟩ := Option.ne_none_iff_exists'.1 (hb z hz hzx)
        obtain ⟨dz, hdz, huz⟩ := hQ z u hu
        exact ⟨dz, u, hdz, huz, hu⟩) d0 hd0
      have hsubvs := hsub.trans hsub0
      refine ((hpw.imp_of_mem (S := fun v u => o.le (o.expr.val w.heap.params (σ.set xj u)) (o.expr.val w.heap.params (σ.set xj v))) ?_).sublist hsubvs)
      intro v u hv hu h
      obtain ⟨rv, hrv⟩ := hbound v hv
      obtain ⟨ru, hru⟩ := hbound u hu
      rw [val_of_ok _ _ hrv, val_of_ok _ _ hru]
      exact h _ _ hrv hru

theorem opt_best {a : SolveArgs} {o : Objective} {w : World} (hok : OptOk a [o] w) (hsol : w.model.solvable = true)
    (hvar : ∃ x, (w.model.domain? x).isSome) (hV : ∀ x ∈ o.expr.vars, (w.model.domain? x).isSome) (hlen : o.expr.vars.length ≠ 1)
    (hsafe : a.solver.compile = true → o.Safe w.heap.params) (hval : o.Valued w.model w.heap.params)
    (himp : ∀ names pre x post, names.Perm w.model.pureVars.keys → (a.solver.policy = .ordered → names = w.model.pureVars.keys) →
      names = pre ++ x :: post → x ∈ o.expr.vars → (∀ y ∈ post, y ∉ o.expr.vars) → o.Improving w.model w.heap.params x)
    (n : Nat) (hend : (optimizeRun a [o] n w).2.1.phase = .finished) (hint : (optimizeRun a [o] n w).2.1.interrupt = none)
    (τ : Subst) (hτ : (optimizeRun a [o] n w).1.getLast? = some τ) (τ' : Subst)
    (hτ' : IsSolution w.model (w.model.constraints ++ a.adds) (optimizeRun a [o] n w).2.2.heap τ') (v v' : Int)
    (hv : o.expr.eval w.heap.params τ = .ok v) (hv' : o.expr.eval w.heap.params τ' = .ok v') : o.le v v' := by
  by_cases h0 : o.expr.vars = []
  · rw [eval_congr _ τ τ' _ (by rw [h0]; simp)] at hv
    rw [hv] at hv'; cases hv'; exact o.le_refl _
  obtain ⟨ks, w', hmk, hm⟩ := makeConstraints_spec [o] w hok.names
  have hok' := made_solveOk hok hm
  obtain ⟨k, rfl⟩ : ∃ k, ks = [k] := by
    have := congrArg List.length hm.objs
    simp only [List.length_map, List.length_cons, List.length_nil] at this
    exact List.length_eq_one_iff.1 this
  have hobj : k.obj = o := by have := hm.objs; simpa using this
  rw [optimizeRun_eq hmk] at hend hint hτ hτ'
  simp only at hend hint hτ hτ'
  obtain ⟨H, info, hset, _, hperm, houts, hlast⟩ := run_natural (a := a.withObjectives [k]) hok'.shuffle hok'.wf.names
    (by rw [hm.solvable]; exact hsol) (by simpa only [made_domain hm] using hvar) (onSolution [k]) hend hint
  obtain ⟨hH, hinv, _⟩ := setup_spec hok'.ids hset
  rw [← hH] at hinv
  have hpar : ∀ i < w.heap.nparams, H.params i = w.heap.params i := by
    rw [hH]; exact start_params (a := a) hm _ _
  have f := hm.fresh k (by simp)
  obtain ⟨p, x, hp, hplo, hphi, hp1⟩ := f.notSet
  obtain ⟨q, y, hq, _, _, hq0⟩ := f.bound
  have hpq := f.ne p x q y hp hq
  have hordered : a.solver.policy = .ordered → orderVars (a.withObjectives [k]).solver.policy (a.withObjectives [k]).shuffle w'.model info =
      w'.model.pureVars.keys := by
    intro ho
    simp only [SolveArgs.withObjectives, ho, orderVars]; exact hinv.keys
  generalize orderVars (a.withObjectives [k]).solver.policy (a.withObjectives [k]).shuffle w'.model info = names at *
  rw [made_pureVars hm] at hperm hordered
  have hnd : names.Nodup := hperm.nodup_iff.2 (pureVars_nodup (by have := hok.solve.wf.names; exact this))
  have hmem : ∀ x, x ∈ names ↔ (w.model.domain? x).isSome := by
    intro x
    rw [hperm.mem_iff, ← pureVars_get? hok.solve.wf.names]
    constructor
    · intro h; obtain ⟨v, hv⟩ := Dict.get?_isSome_of_mem_keys h; simp [hv]
    · intro h; obtain ⟨v, hv⟩ := Option.isSome_iff_exists.1 h; exact Dict.mem_keys_of_get? hv
  obtain ⟨z, hz⟩ := List.exists_mem_of_ne_nil _ h0
  obtain ⟨pre, xj, post, hnames, hxj, hpost⟩ := last_split names o.expr.vars ⟨z, (hmem z).2 (hV z hz), hz⟩
  have hbb := opt_bb hok hm hobj hlen hsafe hval hpar hinv hp hq hpq hxj (himp names pre xj post hperm hordered hnames hxj hpost)
  have hready := ready_start hok hm (k := k) (by simp)
  rw [show a.solver.compile = (a.withObjectives [k]).solver.compile from rfl, ← hH] at hready
  rw [hnames] at hlast
  have hxpre : xj ∉ pre := by
    rw [hnames] at hnd
    intro h
    exact (List.nodup_append.1 hnd).2.2 xj h xj (by simp) rfl
  obtain ⟨_, _, hbest⟩ := hbb.optimal post hpost pre [] H _ hxpre (by intro x v h; simp at h) ⟨.refl _ _, hready⟩
    (by
      intro y hy hne hnp
      have := (hmem y).2 (hV y hy)
      rw [hnames] at this
      simp only [List.mem_append, List.mem_cons] at this
      rcases this with h | h | h
      · exact absurd h hnp
      · exact absurd h hne
      · exact absurd hy (hpost y h)) (by simp) hlast
  rw [← hnames] at hlast hbest
  -- the bound at the end is the value of the last solution
  have hbnd : bndOf p q (solveRun (a.withObjectives [k]) w'.model (onSolution [k]) n w'.heap).2.2 = some v := by
    rcases dfs_last _ _ _ _ hlast with ⟨h, _⟩ | ⟨pre', τ1, s1, h, hact⟩
    · rw [houts, h] at hτ; simp at hτ
    · rw [houts, h] at hτ
      simp only [List.getLast?_append, List.getLast?_singleton, Option.some_or, Option.some.injEq] at hτ
      subst hτ
      obtain ⟨u, hu, hs2⟩ := onSolution_one hact
      have hst := opt_steady (a := a) hm n
      have hst2 := setBound_steady f u s1
      have : ∀ i < w.heap.nparams, s1.params i = w.heap.params i := by
        intro i hi
        rw [hst2.1 i hi, hs2, ← hst.1 i hi]
        obtain ⟨_, _, _, hh⟩ := startSolve_heap (a.withObjectives [k]) w'.model w'.heap
        rw [hh, compileAll_params, hm.params i hi]
      rw [hobj, (safe_old hok (by simp) this).2, hv] at hu
      cases hu
      rw [← hs2]
      unfold bndOf
      rw [setBound_params hp hq]
      simp [hpq]
  -- the other solution is on a path
  have hst := opt_steady (a := a) hm n
  have hH' : (startSolve (a.withObjectives [k]) w'.model w'.heap).1 = H := by
    simp only [startSolve, hset]
    rw [hm.solvable, hsol]
    simp only [Bool.not_true, Bool.false_eq_true, if_false]
    split <;> rfl
  rw [hH'] at hst
  obtain ⟨τ2, hpath, hsame⟩ := path_accepts (R := Old w.heap) (τ := τ') hok'.wf.names hinv
    (fun c hc => by rw [hH]; exact compileAll_fnOk _ hok'.ids hok'.fns c hc)
    (names := names) (by rw [made_pureVars hm]; exact hperm)
    ((made_assignment hm τ').2 hτ'.toAssignment)
    (by
      intro c hc hcase
      simp only [SolveArgs.withObjectives, hm.cons, ← List.append_assoc, List.map_cons, List.map_nil] at hc
      rcases List.mem_append.1 hc with hc | hc
      · obtain ⟨r, hr, hr0⟩ := hτ'.con c hc
        exact ⟨r, by rw [steady_evaluate hst (hok.old c hc)]; exact hr, hr0⟩
      · simp only [List.mem_cons, List.not_mem_nil, or_false] at hc
        subst hc
        have hkind := f.con
        rw [hp, hq, hobj] at hkind
        rcases hcase with h | h | h
        · simp [Constraint.isAD, hkind] at h
        · simp only [Constraint.vars, CKind.vars, hkind, boundExpr_vars_length] at h
          exact absurd h hlen
        · have := h.1; have := f.idLo; omega)
  obtain ⟨B, hB, hle⟩ := hbest τ2 hpath
  rw [hbnd] at hB
  cases hB
  rw [show o.expr.val w.heap.params τ2 = v' from val_of_ok _ _ (by
    rw [eval_congr _ τ2 τ' _ (fun z _ => hsame z)]; exact hv')] at hle
  exact hle

theorem opt_first {a : SolveArgs} {o : Objective} {w : World} (hok : OptOk a [o] w) (hsol : w.model.solvable = true)
    {xj : Name} (hvars : o.expr.vars = [xj]) (hV : (w.model.domain? xj).isSome)
    (hsafe : a.solver.compile = true → o.Safe w.heap.params) (hval : o.Valued w.model w.heap.params)
    (himp : o.Improving w.model w.heap.params xj)
    (hfirst : ∀ names, names.Perm w.model.pureVars.keys → (a.solver.policy = .ordered → names = w.model.pureVars.keys) →
      ∃ post, names = xj :: post)
    (n : Nat) (hend : (optimizeRun a [o] n w).2.1.phase = .finished) (hint : (optimizeRun a [o] n w).2.1.interrupt = none)
    (τ : Subst) (hτ : (optimizeRun a [o] n w).1.getLast? = some τ) (τ' : Subst)
    (hτ' : IsSolution w.model (w.model.constraints ++ a.adds) (optimizeRun a [o] n w).2.2.heap τ') (v v' : Int)
    (hv : o.expr.eval w.heap.params τ = .ok v) (hv' : o.expr.eval w.heap.params τ' = .ok v') : o.le v v' := by
  obtain ⟨ks, w', hmk, hm⟩ := makeConstraints_spec [o] w hok.names
  have hok' := made_solveOk hok hm
  obtain ⟨k, rfl⟩ : ∃ k, ks = [k] := by
    have := congrArg List.length hm.objs
    simp only [List.length_map, List.length_cons, List.length_nil] at this
    exact List.length_eq_one_iff.1 this
  have hobj : k.obj = o := by have := hm.objs; simpa using this
  rw [optimizeRun_eq hmk] at hend hint hτ hτ'
  simp only at hend hint hτ hτ'
  obtain ⟨H, info, hset, _, hperm, houts, hlast⟩ := run_natural (a := a.withObjectives [k]) hok'.shuffle hok'.wf.names
    (by rw [hm.solvable]; exact hsol) (by simpa only [made_domain hm] using ⟨xj, hV⟩) (onSolution [k]) hend hint
  obtain ⟨hH, hinv, _⟩ := setup_spec hok'.ids hset
  rw [← hH] at hinv
  have hpar : ∀ i < w.heap.nparams, H.params i = w.heap.params i := by
    rw [hH]; exact start_params (a := a) hm _ _
  have f := hm.fresh k (by simp)
  obtain ⟨p, x, hp, hplo, hphi, hp1⟩ := f.notSet
  obtain ⟨q, y, hq, _, _, hq0⟩ := f.bound
  have hpq := f.ne p x q y hp hq
  have hordered : a.solver.policy = .ordered → orderVars (a.withObjectives [k]).solver.policy (a.withObjectives [k]).shuffle w'.model info =
      w'.model.pureVars.keys := by
    intro ho
    simp only [SolveArgs.withObjectives, ho, orderVars]; exact hinv.keys
  generalize orderVars (a.withObjectives [k]).solver.policy (a.withObjectives [k]).shuffle w'.model info = names at *
  rw [made_pureVars hm] at hperm hordered
  have hnd : names.Nodup := hperm.nodup_iff.2 (pureVars_nodup (by have := hok.solve.wf.names; exact this))
  have hmem : ∀ x, x ∈ names ↔ (w.model.domain? x).isSome := by
    intro x
    rw [hperm.mem_iff, ← pureVars_get? hok.solve.wf.names]
    constructor
    · intro h; obtain ⟨v, hv⟩ := Dict.get?_isSome_of_mem_keys h; simp [hv]
    · intro h; obtain ⟨v, hv⟩ := Option.isSome_iff_exists.1 h; exact Dict.mem_keys_of_get? hv
  obtain ⟨post, hnames⟩ := hfirst names hperm hordered
  have hxj : xj ∈ o.expr.vars := by rw [hvars]; simp
  have hpost : ∀ y ∈ post, y ∉ o.expr.vars := by
    intro y hy hyv
    rw [hvars] at hyv
    simp at hyv
    subst hyv
    rw [hnames] at hnd
    exact (List.nodup_cons.1 hnd).1 hy
  have hbb := opt_bb0 hok hm hobj hsafe hpar hinv hp hq hpq hxj
  have hready := ready_start hok hm (k := k) (by simp)
  rw [show a.solver.compile = (a.withObjectives [k]).solver.compile from rfl, ← hH] at hready
  rw [hnames] at hlast
  have hb0 : bndOf p q H = none := by
    unfold bndOf
    rw [hH, compileAll_params, hp1]
    simp
  obtain ⟨_, _, hbest⟩ := hbb.atLast post hpost [] H _ (by intro x v h; simp at h) ⟨.refl _ _, hready⟩
    (by intro y hy hne; rw [hvars] at hy; simp at hy; exact absurd hy hne)
    (by
      intro vs hc
      obtain ⟨d, hd, hsub, hmem'⟩ := candidates_ok hc
      obtain ⟨d0, hd0, hsub0, _⟩ := hinv.dom xj d hd
      rw [pureVars_get? hm.inv.1, made_domain hm] at hd0
      have hset1 : ∀ v, Dict.get? (Dict.set ([] : Subst) xj v) xj = some v := fun v => by simp [Dict.get?_set]
      have hbound : ∀ v ∈ d0, ∃ r, o.expr.eval w.heap.params (Dict.set ([] : Subst) xj v) = .ok r := by
        intro v hv
        refine hval _ (fun z hz => ?_)
        rw [hvars] at hz; simp at hz; subst hz
        exact ⟨d0, v, hd0, hv, hset1 v⟩
      refine ⟨fun v => ?_, ?_⟩
      · rw [hb0]
        simp only [reduceCtorEq, false_implies, implies_true, and_true]
        constructor
        · exact accepts_of_candidates (fun _ c _ _ σ => rfl) hc v
        · rintro ⟨⟨d', hd', hv⟩, had, hcons⟩
          rw [hd] at hd'; cases hd'
          refine (hmem' v).2 ⟨hv, acceptable_true.2 ⟨had, fun c hcz => ?_⟩⟩
          refine hcons c hcz ?_
          rw [hinv.cons] at hcz
          obtain ⟨hc1, hc2⟩ := List.mem_filter.1 hcz
          simp only [SolveArgs.withObjectives, hm.cons, ← List.append_assoc, List.mem_append, List.map_cons, List.map_nil,
            List.mem_cons, List.not_mem_nil, or_false] at hc1
          rcases hc1 with hc1 | rfl
          · exact hok.old c (by simpa using hc1)
          · have hkind := f.con
            rw [hp, hq, hobj] at hkind
            have : k.con.vars.length = 1 := by
              simp only [Constraint.vars, CKind.vars, hkind, boundExpr_vars_length, hvars, List.length_singleton]
            simp [this] at hc2
      · have hpw := himp [] (by intro z hz hne; rw [hvars] at hz; simp at hz; exact absurd hz hne) d0 hd0
        refine ((hpw.imp_of_mem (S := fun v u => o.le (o.expr.val w.heap.params (Dict.set ([] : Subst) xj u))
          (o.expr.val w.heap.params (Dict.set ([] : Subst) xj v))) ?_).sublist (hsub.trans hsub0))
        intro v u hv hu h
        obtain ⟨rv, hrv⟩ := hbound v hv
        obtain ⟨ru, hru⟩ := hbound u hu
        rw [val_of_ok _ _ hrv, val_of_ok _ _ hru]
        exact h _ _ hrv hru) hlast
  rw [← hnames] at hlast hbest
  -- the bound at the end is the value of the last solution
  have hbnd : bndOf p q (solveRun (a.withObjectives [k]) w'.model (onSolution [k]) n w'.heap).2.2 = some v := by
    rcases dfs_last _ _ _ _ hlast with ⟨h, _⟩ | ⟨pre', τ1, s1, h, hact⟩
    · rw [houts, h] at hτ; simp at hτ
    · rw [houts, h] at hτ
      simp only [List.getLast?_append, List.getLast?_singleton, Option.some_or, Option.some.injEq] at hτ
      subst hτ
      obtain ⟨u, hu, hs2⟩ := onSolution_one hact
      have hst := opt_steady (a := a) hm n
      have hst2 := setBound_steady f u s1
      have : ∀ i < w.heap.nparams, s1.params i = w.heap.params i := by
        intro i hi
        rw [hst2.1 i hi, hs2, ← hst.1 i hi]
        obtain ⟨_, _, _, hh⟩ := startSolve_heap (a.withObjectives [k]) w'.model w'.heap
        rw [hh, compileAll_params, hm.params i hi]
      rw [hobj, (safe_old hok (by simp) this).2, hv] at hu
      cases hu
      rw [← hs2]
      unfold bndOf
      rw [setBound_params hp hq]
      simp [hpq]
  -- the other solution is on a path
  have hst := opt_steady (a := a) hm n
  have hH' : (startSolve (a.withObjectives [k]) w'.model w'.heap).1 = H := by
    simp only [startSolve, hset]
    rw [hm.solvable, hsol]
    simp only [Bool.not_true, Bool.false_eq_true, if_false]
    split <;> rfl
  rw [hH'] at hst
  obtain ⟨τ2, hpath, hsame⟩ := path_accepts (R := Old w.heap) (τ := τ') hok'.wf.names hinv
    (fun c hc => by rw [hH]; exact compileAll_fnOk _ hok'.ids hok'.fns c hc)
    (names := names) (by rw [made_pureVars hm]; exact hperm)
    ((made_assignment hm τ').2 hτ'.toAssignment)
    (by
      intro c hc hcase
      simp only [SolveArgs.withObjectives, hm.cons, ← List.append_assoc, List.map_cons, List.map_nil] at hc
      rcases List.mem_append.1 hc with hc | hc
      · obtain ⟨r, hr, hr0⟩ := hτ'.con c hc
        exact ⟨r, by rw [steady_evaluate hst (hok.old c hc)]; exact hr, hr0⟩
      · simp only [List.mem_cons, List.not_mem_nil, or_false] at hc
        subst hc
        have hkind := f.con
        rw [hp, hq, hobj] at hkind
        obtain ⟨hs1, hs2⟩ := safe_old hok (o := o) (by simp) hpar
        refine ⟨_, con_evaluate f hready (fun hc => by rw [hobj]; exact hs1.1 (hsafe hc)) hp hq (v := v')
          (by rw [hobj, hs2]; exact hv'), ?_⟩
        rw [hobj, pyOr_bound, hH, compileAll_params, hp1]
        intro h; simp at h)
  obtain ⟨B, hB, hle⟩ := hbest τ2 hpath
  rw [hbnd] at hB
  cases hB
  rw [show o.expr.val w.heap.params τ2 = v' from val_of_ok _ _ (by
    rw [eval_congr _ τ2 τ' _ (fun z _ => hsame z)]; exact hv')] at hle
  exact hle

/-- C30, the part that is true: one objective over zero or at least two variables that never gets worse when one of its
variables moves on in its declared domain.
Missing: objectives over a single variable (see `C30_first_partial`), objectives that get worse along a domain; for these the claim is
false, see `C30_refuted`. Several objectives at once: see `C53_partial`. -/
theorem C30_partial {a : SolveArgs} {o : Objective} {w : World} (hok : OptOk a [o] w) (hsol : w.model.solvable = true)
    (hvar : ∃ x, (w.model.domain? x).isSome) (hV : ∀ x ∈ o.expr.vars, (w.model.domain? x).isSome) (hlen : o.expr.vars.length ≠ 1)
    (hsafe : a.solver.compile = true → o.Safe w.heap.params) (hval : o.Valued w.model w.heap.params)
    (himp : ∀ x ∈ o.expr.vars, o.Improving w.model w.heap.params x) (n : Nat) (r : OptSolution) (τ : Subst)
    (hr : optimalSolution (optimizeRun a [o] n w) = some (.ok r)) (hopt : r.isOptimal = true) (hτ : r.solution = some τ) (τ' : Subst)
    (hτ' : IsSolution w.model (w.model.constraints ++ a.adds) (optimizeRun a [o] n w).2.2.heap τ') (v v' : Int)
    (hv : o.expr.eval w.heap.params τ = .ok v) (hv' : o.expr.eval w.heap.params τ' = .ok v') : o.le v v' := by
  have hflag := (C29_flag a [o] w n r hr).1.1 hopt
  unfold optimalSolution at hr
  split at hr
  · rename_i hend
    simp only [Option.some.injEq, Except.ok.injEq] at hr
    subst hr
    exact opt_best hok hsol hvar hV hlen hsafe hval (fun _ _ x _ _ _ _ hx _ => himp x hx) n hend hflag.2 τ hτ τ' hτ' v v' hv hv'
  · simp at hr
  · simp at hr

/-- C30 with the ORDERED policy: only the last declared variable of the objective matters. -/
theorem C30_ordered_partial {a : SolveArgs} {o : Objective} {w : World} (hok : OptOk a [o] w) (hsol : w.model.solvable = true)
    (hpol : a.solver.policy = .ordered) (pre post : List Name) (x : Name) (hkeys : w.model.pureVars.keys = pre ++ x :: post)
    (hx : x ∈ o.expr.vars) (hpost : ∀ y ∈ post, y ∉ o.expr.vars)
    (hV : ∀ x ∈ o.expr.vars, (w.model.domain? x).isSome) (hlen : o.expr.vars.length ≠ 1)
    (hsafe : a.solver.compile = true → o.Safe w.heap.params) (hval : o.Valued w.model w.heap.params)
    (himp : o.Improving w.model w.heap.params x) (n : Nat) (r : OptSolution) (τ : Subst)
    (hr : optimalSolution (optimizeRun a [o] n w) = some (.ok r)) (hopt : r.isOptimal = true) (hτ : r.solution = some τ) (τ' : Subst)
    (hτ' : IsSolution w.model (w.model.constraints ++ a.adds) (optimizeRun a [o] n w).2.2.heap τ') (v v' : Int)
    (hv : o.expr.eval w.heap.params τ = .ok v) (hv' : o.expr.eval w.heap.params τ' = .ok v') : o.le v v' := by
  have hflag := (C29_flag a [o] w n r hr).1.1 hopt
  unfold optimalSolution at hr
  split at hr
  · rename_i hend
    simp only [Option.some.injEq, Except.ok.injEq] at hr
    subst hr
    refine opt_best hok hsol ⟨x, hV x hx⟩ hV hlen hsafe hval ?_ n hend hflag.2 τ hτ τ' hτ' v v' hv hv'
    intro names pre' x' post' _ hord hn hx' hpost'
    rw [hord hpol, hkeys] at hn
    have : x' = x := by
      rcases List.append_eq_append_iff.1 hn with ⟨l, h1, h2⟩ | ⟨l, h1, h2⟩
      · cases l with
        | nil => simp at h2; exact h2.1.symm
        | cons z l =>
          simp only [List.cons_append, List.cons.injEq] at h2
          exact absurd hx' (hpost x' (by rw [h2.2]; simp))
      · cases l with
        | nil => simp at h2; exact h2.1
        | cons z l =>
          simp only [List.cons_append, List.cons.injEq] at h2
          exact absurd hx (hpost' x (by rw [h2.2]; simp))
    rw [this]; exact himp
  · simp at hr
  · simp at hr

/-- C30, a single variable: right if it is the first one in the search, here because the policy is ORDERED and it was declared first, or
because there is no other. -/
theorem C30_first_partial {a : SolveArgs} {o : Objective} {w : World} (hok : OptOk a [o] w) (hsol : w.model.solvable = true)
    (x : Name) (post : List Name) (hkeys : w.model.pureVars.keys = x :: post) (hpol : a.solver.policy = .ordered ∨ post = [])
    (hvars : o.expr.vars = [x]) (hsafe : a.solver.compile = true → o.Safe w.heap.params) (hval : o.Valued w.model w.heap.params)
    (himp : o.Improving w.model w.heap.params x) (n : Nat) (r : OptSolution) (τ : Subst)
    (hr : optimalSolution (optimizeRun a [o] n w) = some (.ok r)) (hopt : r.isOptimal = true) (hτ : r.solution = some τ) (τ' : Subst)
    (hτ' : IsSolution w.model (w.model.constraints ++ a.adds) (optimizeRun a [o] n w).2.2.heap τ') (v v' : Int)
    (hv : o.expr.eval w.heap.params τ = .ok v) (hv' : o.expr.eval w.heap.params τ' = .ok v') : o.le v v' := by
  have hflag := (C29_flag a [o] w n r hr).1.1 hopt
  have hV : (w.model.domain? x).isSome := by
    rw [← pureVars_get? hok.solve.wf.names]
    obtain ⟨d, hd⟩ := Dict.get?_isSome_of_mem_keys (show x ∈ w.model.pureVars.keys by rw [hkeys]; simp)
    simp [hd]
  unfold optimalSolution at hr
  split at hr
  · rename_i hend
    simp only [Option.some.injEq, Except.ok.injEq] at hr
    subst hr
    refine opt_first hok hsol hvars hV hsafe hval himp ?_ n hend hflag.2 τ hτ τ' hτ' v v' hv hv'
    intro names hperm hord
    rcases hpol with h | h
    · exact ⟨post, by rw [hord h, hkeys]⟩
    · subst h
      rw [hkeys] at hperm
      exact ⟨[], List.perm_singleton.1 hperm⟩
  · simp at hr
  · simp at hr

/-! Concrete optimisations. -/

theorem optOk_check {a : SolveArgs} (hs : ∀ l, (a.shuffle l).Perm l) (ha : a.adds = []) {os : List Objective} {w : World}
    (h1 : w.model.vars.keys.Nodup) (h2 : ∀ p ∈ w.model.vars, (p.2.domain.getD []).Nodup) (h3 : ∀ x ∈ w.model.vars.keys, checkName x = true)
    (h4 : (w.model.constraints.map (·.id)).Nodup) (h5 : ∀ c ∈ w.model.constraints, w.heap.fns c.id = none)
    (h6 : ∀ c ∈ w.model.constraints, Old w.heap c) (h7 : ∀ o ∈ os, ∀ i ∈ o.expr.params, i < w.heap.nparams) : OptOk a os w := by
  refine ⟨⟨hs, wf_check h1 h2, ?_, ?_⟩, nameInv_check h1 h3, ?_, h7⟩
  · rw [ha, List.append_nil]; exact sameIds_check h4
  · rw [ha, List.append_nil]; intro c hc e f _ hf; rw [h5 c hc] at hf; cases hf
  · rw [ha, List.append_nil]; exact h6

/-- No mutable objects yet; `n` constraint objects. -/
def plainHeap (n : Nat) : Heap := ⟨fun _ => 0, fun _ => none, 0, n⟩

/-- `x` in `(1, 2, 3)`, no constraint. -/
def world1 : World := ⟨⟨[("x", ⟨some [1, 2, 3], none⟩)], [], true⟩, plainHeap 0⟩
def minX : Objective := ⟨false, .var "x"⟩

theorem world1_ok : OptOk exArgs [minX] world1 :=
  optOk_check (fun _ => .refl _) rfl (by decide) (by decide) (by decide) (by decide) (by intro c hc; cases hc) (by intro c hc; cases hc)
    (by intro o ho; simp at ho; subst ho; intro i hi; simp [minX, Expr.params] at hi)

/-- C30 is false of the code: `Minimize(x)` for `x` in `(1, 2, 3)` without any constraint returns 3 and says it is optimal. A bound on a
single variable is applied once, before the search. -/
theorem C30_refuted :
    OptOk exArgs [minX] world1 ∧
    optimalSolution (optimizeRun exArgs [minX] 12 world1) = some (.ok ⟨true, some [("x", 3)]⟩) ∧
    IsSolution world1.model (world1.model.constraints ++ exArgs.adds) (optimizeRun exArgs [minX] 12 world1).2.2.heap [("x", 1)] ∧
    minX.expr.eval world1.heap.params [("x", 3)] = .ok 3 ∧ minX.expr.eval world1.heap.params [("x", 1)] = .ok 1 ∧ ¬ minX.le 3 1 := by
  refine ⟨world1_ok, by decide, ⟨assignment_check (by decide) (by decide) (by decide) (by decide) (by decide), ?_⟩, rfl, rfl, by decide⟩
  intro c hc; cases hc

def maxX : Objective := ⟨true, .var "x"⟩

theorem world1_max_ok : OptOk exArgs [maxX] world1 :=
  optOk_check (fun _ => .refl _) rfl (by decide) (by decide) (by decide) (by decide) (by intro c hc; cases hc) (by intro c hc; cases hc)
    (by intro o ho; simp at ho; subst ho; intro i hi; simp [maxX, Expr.params] at hi)

/-- The hypotheses of `C30_first_partial` can be met: `Maximize(x)` for `x` in `(1, 2, 3)`. -/
example (τ' : Subst) (hτ' : IsSolution world1.model world1.model.constraints (optimizeRun exArgs [maxX] 12 world1).2.2.heap τ') (v' : Int)
    (hv' : maxX.expr.eval world1.heap.params τ' = .ok v') : v' ≤ 3 := by
  have := C30_first_partial world1_max_ok rfl "x" [] rfl (.inr rfl) rfl (fun _ => ⟨⟨_, rfl, by decide⟩, by decide⟩)
    (by
      intro σ h
      obtain ⟨_, a, _, _, ha⟩ := h "x" (by decide)
      exact ⟨a, by simp [maxX, Expr.eval, ha]⟩)
    (by
      intro σ _ d hd
      have hd : [1, 2, 3] = d := Option.some.inj hd
      subst hd
      have : List.Pairwise (fun v w : Int => v ≤ w) [1, 2, 3] := by decide
      refine this.imp (fun {v w} hvw a b ha hb => ?_)
      simp [maxX, Expr.eval] at ha hb
      subst ha; subst hb
      simpa [Objective.le, maxX] using hvw)
    12 ⟨true, some [("x", 3)]⟩ [("x", 3)] (by decide) rfl rfl τ' (by simpa [exArgs] using hτ') 3 v' rfl hv'
  simpa [Objective.le, maxX] using this

/-- `x`, `y` in `(0, 1)`, no constraint. -/
def world2 : World := ⟨⟨[("x", ⟨some [0, 1], none⟩), ("y", ⟨some [0, 1], none⟩)], [], true⟩, plainHeap 0⟩
def minXY : Objective := ⟨false, .bin .add (.var "x") (.var "y")⟩
def maxXY : Objective := ⟨true, .bin .add (.var "x") (.var "y")⟩

theorem world2_ok (o : Objective) (ho : o.expr = .bin .add (.var "x") (.var "y")) : OptOk exArgs [o] world2 :=
  optOk_check (fun _ => .refl _) rfl (by decide) (by decide) (by decide) (by decide) (by intro c hc; cases hc) (by intro c hc; cases hc)
    (by intro o ho'; simp at ho'; subst ho'; intro i hi; simp [ho, Expr.params] at hi)

/-- C30 is false of the code, with two variables: `Minimize(x + y)` for `x`, `y` in `(0, 1)` returns `x + y = 1` and says it is optimal. The
values of the variable bound last are filtered when they are listed, not when they are used, and every solution resets the bound. -/
theorem C30_refuted_stale :
    OptOk exArgs [minXY] world2 ∧
    optimalSolution (optimizeRun exArgs [minXY] 12 world2) = some (.ok ⟨true, some [("y", 0), ("x", 1)]⟩) ∧
    IsSolution world2.model (world2.model.constraints ++ exArgs.adds) (optimizeRun exArgs [minXY] 12 world2).2.2.heap [("x", 0), ("y", 0)] ∧
    minXY.expr.eval world2.heap.params [("y", 0), ("x", 1)] = .ok 1 ∧ minXY.expr.eval world2.heap.params [("x", 0), ("y", 0)] = .ok 0 ∧
    ¬ minXY.le 1 0 := by
  refine ⟨world2_ok _ rfl, by decide, ⟨assignment_check (by decide) (by decide) (by decide) (by decide) (by decide), ?_⟩, rfl, rfl, by decide⟩
  intro c hc; cases hc

theorem xy_val (ρ : Store) {σ : Subst} {a b : Int} (hx : σ.get? "x" = some a) (hy : σ.get? "y" = some b) :
    (Expr.bin .add (.var "x") (.var "y")).eval ρ σ = .ok (a + b) := by
  simp [Expr.eval, hx, hy, BOp.op]

theorem maxXY_valued (m : Model) (ρ : Store) : maxXY.Valued m ρ := by
  intro σ h
  obtain ⟨_, a, _, _, ha⟩ := h "x" (by decide)
  obtain ⟨_, b, _, _, hb⟩ := h "y" (by decide)
  exact ⟨_, xy_val ρ ha hb⟩

theorem world2_domain {x : Name} {d : List Int} (h : world2.model.domain? x = some d) : d = [0, 1] := by
  obtain ⟨i, hi, hd⟩ := domain_mem h
  simp only [world2, List.mem_cons, Prod.mk.injEq, List.not_mem_nil, or_false] at hi
  rcases hi with ⟨rfl, rfl⟩ | ⟨rfl, rfl⟩ <;> simpa using hd.symm

theorem maxXY_improving : ∀ x ∈ maxXY.expr.vars, maxXY.Improving world2.model world2.heap.params x := by
  intro x hx σ h d hd
  have hd := world2_domain hd
  subst hd
  have hx' : x = "x" ∨ x = "y" := by
    have : maxXY.expr.vars = ["x", "y"] := by decide
    rw [this] at hx; simpa using hx
  simp only [List.pairwise_cons, List.mem_cons, List.not_mem_nil, or_false, forall_eq, IsEmpty.forall_iff, implies_true, List.Pairwise.nil, and_true]
  intro a b ha hb
  rcases hx' with rfl | rfl
  · obtain ⟨_, u, _, _, hu⟩ := h "y" (by decide) (by decide)
    simp [maxXY, Expr.eval, Dict.get?_set, hu, BOp.op] at ha hb
    subst ha; subst hb
    simp [Objective.le, maxXY]
  · obtain ⟨_, u, _, _, hu⟩ := h "x" (by decide) (by decide)
    simp [maxXY, Expr.eval, Dict.get?_set, hu, BOp.op] at ha hb
    subst ha; subst hb
    simp [Objective.le, maxXY]

/-- The hypotheses of `C30_partial` can be met: `Maximize(x + y)` for `x`, `y` in `(0, 1)`. -/
example (τ' : Subst) (hτ' : IsSolution world2.model world2.model.constraints (optimizeRun exArgs [maxXY] 12 world2).2.2.heap τ') (v' : Int)
    (hv' : maxXY.expr.eval world2.heap.params τ' = .ok v') : v' ≤ 2 := by
  have := C30_partial (world2_ok maxXY rfl) rfl ⟨"x", rfl⟩ (by decide) (by decide) (fun _ => ⟨⟨10, rfl, by decide⟩, by decide⟩)
    (maxXY_valued _ _) maxXY_improving 12 ⟨true, some [("y", 1), ("x", 1)]⟩ [("y", 1), ("x", 1)] (by decide) rfl rfl τ'
    (by simpa [exArgs] using hτ') 2 v' rfl hv'
  simpa [Objective.le, maxXY] using this

/-- The hypotheses of C28 and C29 can be met. -/
example : ∃ τ, IsSolution world2.model world2.model.constraints (optimizeRun exArgs [minXY] 12 world2).2.2.heap τ := by
  have h := C29_solution (world2_ok minXY rfl) rfl ⟨"x", rfl⟩ (by intro c hc; cases hc)
    (fun _ o ho => by simp at ho; subst ho; exact ⟨⟨10, rfl, by decide⟩, by decide⟩)
    (by
      intro o ho τ hτ
      simp at ho; subst ho
      obtain ⟨a, ha⟩ := Dict.get?_isSome_of_mem_keys ((hτ.keys "x").2 rfl)
      obtain ⟨b, hb⟩ := Dict.get?_isSome_of_mem_keys ((hτ.keys "y").2 rfl)
      exact ⟨_, xy_val _ ha hb⟩)
    12 ⟨true, some [("y", 0), ("x", 1)]⟩ (by decide) rfl
  by_contra hno
  have := h.2 (by simpa [exArgs] using hno)
  cases this

example : (optimizeRun exArgs [minXY] 12 world2).1 = [[("y", 0), ("x", 0)], [("y", 0), ("x", 1)]] ∧
    ∀ τ ∈ (optimizeRun exArgs [minXY] 12 world2).1,
      IsSolution world2.model (world2.model.constraints ++ exArgs.adds) (optimizeRun exArgs [minXY] 12 world2).2.2.heap τ :=
  ⟨by decide, C28_sound (world2_ok minXY rfl) (by intro c hc; cases hc) 12⟩

/-! ## C31 -/

/-- `solve` looks at the variables with domains, the constraints and the flag of the model, at nothing else. -/
theorem solveRun_model {m m' : Model} (hv : m.pureVars = m'.pureVars) (hc : m.constraints = m'.constraints) (hs : m.solvable = m'.solvable)
    (a : SolveArgs) (act : Heap → Subst → Res Heap) (n : Nat) (h : Heap) : solveRun a m act n h = solveRun a m' act n h := by
  have h1 : Info.init m = Info.init m' := by unfold Info.init; rw [hv]
  have h2 : ∀ info, orderVars a.solver.policy a.shuffle m info = orderVars a.solver.policy a.shuffle m' info := by
    intro info; unfold orderVars Model.domSize; rw [hv]
  have h3 : startSolve a m h = startSolve a m' h := by unfold startSolve setup; rw [hs, hc, h1]; simp only [h2]
  unfold solveRun; rw [h3]

/-- An optimisation: the arguments, the objectives, and how many steps of it were taken. -/
structure OptCall where
  args : SolveArgs
  objs : List Objective
  steps : Nat

/-- A history of optimisations. -/
def runOpts (cs : List OptCall) (w : World) : World := cs.foldl (fun w c => (optimizeRun c.args c.objs c.steps w).2.2) w

/-- What optimisations leave as it was. -/
structure Kept (w w' : World) : Prop where
  vars : ∃ extra, w'.model.vars = w.model.vars ++ extra ∧ (∀ p ∈ extra, p.2.domain = none) ∧ ∀ p ∈ extra, p.1 ∉ w.model.vars.keys
  inv : NameInv w'.model.vars
  cons : w'.model.constraints = w.model.constraints
  solvable : w'.model.solvable = w.model.solvable
  domain : ∀ x, w'.model.domain? x = w.model.domain? x
  pure : w'.model.pureVars = w.model.pureVars
  params : ∀ i < w.heap.nparams, w'.heap.params i = w.heap.params i
  nparams : w.heap.nparams ≤ w'.heap.nparams
  ncons : w.heap.ncons ≤ w'.heap.ncons

theorem compileAll_counts (comp : Bool) (cs : List Constraint) (h : Heap) :
    (compileAll comp cs h).nparams = h.nparams ∧ (compileAll comp cs h).ncons = h.ncons := by
  unfold compileAll
  split
  · induction cs generalizing h with
    | nil => exact ⟨rfl, rfl⟩
    | cons c cs ih =>
      have : (c.compile h).nparams = h.nparams ∧ (c.compile h).ncons = h.ncons := by unfold Constraint.compile; split <;> exact ⟨rfl, rfl⟩
      rw [List.foldl_cons, ← this.1, ← this.2]; exact ih _
  · exact ⟨rfl, rfl⟩

theorem setBound_counts (k : ObjCon) (v : Int) (s : Heap) : (k.setBound v s).nparams = s.nparams ∧ (k.setBound v s).ncons = s.ncons := by
  have ha : ∀ (h : Heap) (e : Expr) (v : Int), (h.assign e v).nparams = h.nparams ∧ (h.assign e v).ncons = h.ncons := by
    intro h e v; cases e <;> exact ⟨rfl, rfl⟩
  have hc : ∀ (h : Heap) (c : Constraint), (c.compile h).nparams = h.nparams ∧ (c.compile h).ncons = h.ncons := by
    intro h c; unfold Constraint.compile; split <;> exact ⟨rfl, rfl⟩
  unfold ObjCon.setBound
  simp only
  split <;> simp [ha, hc]

theorem onSolution_counts {ks : List ObjCon} : ∀ {s s' : Heap} {σ : Subst}, onSolution ks s σ = .ok s' →
    s'.nparams = s.nparams ∧ s'.ncons = s.ncons := by
  induction ks with
  | nil => intro s s' σ h; simp only [onSolution, Except.ok.injEq] at h; subst h; exact ⟨rfl, rfl⟩
  | cons k ks ih =>
    intro s s' σ h
    simp only [onSolution, ObjCon.addSolution, bind_eq_ok, pure_res, Except.ok.injEq] at h
    obtain ⟨s1, ⟨v, _, rfl⟩, h2⟩ := h
    obtain ⟨h3, h4⟩ := ih h2
    obtain ⟨h5, h6⟩ := setBound_counts k v s
    exact ⟨h3.trans h5, h4.trans h6⟩

theorem optimize_heap {w w' : World} {os : List Objective} {ks : List ObjCon} (hm : Made w os ks w') (a : SolveArgs) (n : Nat) :
    let s := (solveRun (a.withObjectives ks) w'.model (onSolution ks) n w'.heap).2.2
    (∀ i < w.heap.nparams, s.params i = w.heap.params i) ∧ s.nparams = w'.heap.nparams ∧ s.ncons = w'.heap.ncons ∧
      (a.solver.compile = false → ∀ i < w.heap.ncons, s.fns i = w.heap.fns i) := by
  obtain ⟨pre, _, _, hh⟩ := startSolve_heap (a.withObjectives ks) w'.model w'.heap
  have hst := opt_steady (a := a) hm n
  rw [hh] at hst
  have hcnt : (solveRun (a.withObjectives ks) w'.model (onSolution ks) n w'.heap).2.2.nparams = w'.heap.nparams ∧
      (solveRun (a.withObjectives ks) w'.model (onSolution ks) n w'.heap).2.2.ncons = w'.heap.ncons := by
    rw [solveRun_eq]
    refine sysRun_inv (Inv := fun s : Heap => s.nparams = w'.heap.nparams ∧ s.ncons = w'.heap.ncons) _ _
      (fun s σ s' h1 h2 => by have := onSolution_counts h2; exact ⟨this.1.trans h1.1, this.2.trans h1.2⟩) n _ _ ?_
    rw [hh]; exact compileAll_counts _ _ _
  refine ⟨fun i hi => ?_, hcnt.1, hcnt.2, fun hc i hi => ?_⟩
  · rw [← hst.1 i hi, compileAll_params, hm.params i hi]
  · rw [← hst.2 i hi, show (a.withObjectives ks).solver.compile = a.solver.compile from rfl, hc]
    exact hm.fns i hi

/-- C31: after any number of optimisations (any arguments and objectives, broken off anywhere) the model has the same variables with
domains and the same constraints; only parameters with fresh names were added; existing parameters have their values. -/
theorem C31_model (cs : List OptCall) (w : World) (hi : NameInv w.model.vars) : Kept w (runOpts cs w) := by
  induction cs generalizing w with
  | nil => exact ⟨⟨[], by simp [runOpts], by simp, by simp⟩, hi, rfl, rfl, fun _ => rfl, rfl, fun _ _ => rfl, Nat.le_refl _, Nat.le_refl _⟩
  | cons c cs ih =>
    obtain ⟨ks, w', hmk, hm⟩ := makeConstraints_spec c.objs w hi
    have heq := optimizeRun_eq (a := c.args) hmk c.steps
    obtain ⟨e1, e2, e3, _⟩ := optimize_heap hm c.args c.steps
    have hmod : (optimizeRun c.args c.objs c.steps w).2.2.model = w'.model := by rw [heq]
    have hheap : (optimizeRun c.args c.objs c.steps w).2.2.heap =
        (solveRun (c.args.withObjectives ks) w'.model (onSolution ks) c.steps w'.heap).2.2 := by rw [heq]
    have ih := ih (optimizeRun c.args c.objs c.steps w).2.2 (by rw [hmod]; exact hm.inv)
    obtain ⟨x1, v1, d1, f1⟩ := hm.vars
    obtain ⟨x2, v2, d2, f2⟩ := ih.vars
    have n1 := hm.nparams
    have n2 := hm.ncons
    have n3 := ih.nparams
    have n4 := ih.ncons
    have p := ih.params
    rw [hheap] at n3 n4 p
    rw [e2] at n3 p
    rw [e3] at n4
    refine ⟨⟨x1 ++ x2, ?_, ?_, ?_⟩, ih.inv, ?_, ?_, ?_, ?_, ?_, by exact n1.trans n3, by exact n2.trans n4⟩
    · rw [show runOpts (c :: cs) w = runOpts cs (optimizeRun c.args c.objs c.steps w).2.2 from rfl, v2, hmod, v1, List.append_assoc]
    · intro q hq; rcases List.mem_append.1 hq with h | h
      · exact d1 q h
      · exact d2 q h
    · intro q hq; rcases List.mem_append.1 hq with h | h
      · exact f1 q h
      · intro hmem
        refine f2 q h ?_
        rw [hmod, v1, Dict.keys_append]
        exact List.mem_append_left _ hmem
    · exact ih.cons.trans (by rw [hmod]; exact hm.cons)
    · exact ih.solvable.trans (by rw [hmod]; exact hm.solvable)
    · intro x; exact (ih.domain x).trans (by rw [hmod]; exact made_domain hm x)
    · exact ih.pure.trans (by rw [hmod]; exact made_pureVars hm)
    · intro i hlt
      exact (p i (by omega)).trans (e1 i hlt)

theorem runOpts_fns (cs : List OptCall) (hc : ∀ c ∈ cs, c.args.solver.compile = false) (w : World) (hi : NameInv w.model.vars) :
    ∀ i < w.heap.ncons, (runOpts cs w).heap.fns i = w.heap.fns i := by
  induction cs generalizing w with
  | nil => intro i _; rfl
  | cons c cs ih =>
    obtain ⟨ks, w', hmk, hm⟩ := makeConstraints_spec c.objs w hi
    have heq := optimizeRun_eq (a := c.args) hmk c.steps
    obtain ⟨_, _, e3, e4⟩ := optimize_heap hm c.args c.steps
    intro i hlt
    have hheap : (optimizeRun c.args c.objs c.steps w).2.2.heap =
        (solveRun (c.args.withObjectives ks) w'.model (onSolution ks) c.steps w'.heap).2.2 := by rw [heq]
    have n2 := hm.ncons
    have := ih (fun c' hc' => hc c' (by simp [hc'])) (optimizeRun c.args c.objs c.steps w).2.2 (by rw [heq]; exact hm.inv) i
      (by rw [hheap, e3]; omega)
    rw [show runOpts (c :: cs) w = runOpts cs (optimizeRun c.args c.objs c.steps w).2.2 from rfl, this, hheap]
    exact e4 (hc c (by simp)) i hlt

/-- Compiled constraints depend on the parameters they mention. -/
theorem evaluate_now_params {h h' : Heap} {c : Constraint} (h1 : FnNow h c) (h2 : FnNow h' c)
    (hp : ∀ e, c.kind = .expr e → ∀ i ∈ e.params, h.params i = h'.params i) (σ : Subst) : c.evaluate h σ = c.evaluate h' σ := by
  obtain ⟨i, k⟩ := c
  cases k with
  | const b => rfl
  | allDiff ns => rfl
  | expr e =>
    simp only [Constraint.evaluate]
    rw [h1 e rfl, h2 e rfl, asFunction_params (hp e rfl)]

/-- C31: after any number of optimisations, solving with compilation (the default) runs exactly as it would have before, step by
step. Missing: solvers that do not compile, see `C31_refuted` and `C31_interpreted_partial`. -/
theorem C31_solve_partial {a : SolveArgs} (cs : List OptCall) (w : World) (hi : NameInv w.model.vars) (hcomp : a.solver.compile = true)
    (hids : SameIds (w.model.constraints ++ a.adds)) (hold : ∀ c ∈ w.model.constraints ++ a.adds, Old w.heap c) (n : Nat) :
    (solveRun a (runOpts cs w).model passive n (runOpts cs w).heap).1 = (solveRun a w.model passive n w.heap).1 ∧
    (solveRun a (runOpts cs w).model passive n (runOpts cs w).heap).2.1 = (solveRun a w.model passive n w.heap).2.1 := by
  have hk := C31_model cs w hi
  rw [solveRun_model hk.pure hk.cons hk.solvable]
  refine (solveRun_on hi.1 rfl rfl rfl rfl ?_ ?_).2 n
  · intro p c q heq σ _
    rw [hcomp]
    have hs : SameIds (p ++ [c]) := sameIds_sub hids (by rw [heq]; intro c' hc'; simp at hc' ⊢; rcases hc' with h | h <;> simp [h])
    refine evaluate_now_params (compileAll_now hs c (by simp)) (compileAll_now hs c (by simp)) (fun e he i hi => ?_) σ
    simp only [compileAll_params]
    exact hk.params i ((hold c (by rw [heq]; simp)).2 e he i hi)
  · intro c hc σ _
    rw [hcomp]
    refine evaluate_now_params (compileAll_now hids c hc) (compileAll_now hids c hc) (fun e he i hi => ?_) σ
    simp only [compileAll_params]
    exact hk.params i ((hold c hc).2 e he i hi)

/-- The same for solvers that do not compile, if none of the optimisations did. -/
theorem C31_interpreted_partial {a : SolveArgs} (cs : List OptCall) (w : World) (hi : NameInv w.model.vars) (hcomp : a.solver.compile = false)
    (hcs : ∀ c ∈ cs, c.args.solver.compile = false) (hold : ∀ c ∈ w.model.constraints ++ a.adds, Old w.heap c) (n : Nat) :
    (solveRun a (runOpts cs w).model passive n (runOpts cs w).heap).1 = (solveRun a w.model passive n w.heap).1 ∧
    (solveRun a (runOpts cs w).model passive n (runOpts cs w).heap).2.1 = (solveRun a w.model passive n w.heap).2.1 := by
  have hk := C31_model cs w hi
  rw [solveRun_model hk.pure hk.cons hk.solvable]
  have hf := runOpts_fns cs hcs w hi
  have key : ∀ c ∈ w.model.constraints ++ a.adds, ∀ σ, c.evaluate (runOpts cs w).heap σ = c.evaluate w.heap σ := fun c hc σ =>
    evaluate_params (hf _ (hold c hc).1) (fun e he i hi => hk.params i ((hold c hc).2 e he i hi)) σ
  refine (solveRun_on hi.1 rfl rfl rfl rfl ?_ ?_).2 n
  · intro p c q heq σ _
    rw [hcomp]; exact key c (by rw [heq]; simp) σ
  · intro c hc σ _
    rw [hcomp]; exact key c hc σ

/-- `x`, `y` in `(0, 1)`, `(x == 1 | y == 1) & x == y`. -/
def world3 : World := ⟨⟨[("x", ⟨some [0, 1], none⟩), ("y", ⟨some [0, 1], none⟩)],
  [⟨0, .expr (.bin .and (.bin .or (.bin .eq (.var "x") (.const 1)) (.bin .eq (.var "y") (.const 1))) (.bin .eq (.var "x") (.var "y")))⟩], true⟩,
  plainHeap 1⟩

/-- C31 is false of the code when solvers with and without compilation are mixed: the optimisation leaves compiled functions in the
constraints of the model, which mean something else (C05). -/
theorem C31_refuted :
    let a : SolveArgs := { exArgs with solver := { compile := false } }
    let w := runOpts [⟨exArgs, [maxXY], 20⟩] world3
    (solveRun a world3.model passive 20 world3.heap).1 = [[("y", 1), ("x", 1)]] ∧
    (solveRun a w.model passive 20 w.heap).1 = [[("y", 0), ("x", 1)], [("y", 1), ("x", 1)]] := by decide

example : (solveRun exArgs (runOpts [⟨exArgs, [maxXY], 20⟩, ⟨exArgs, [minXY], 3⟩] world2).model passive 30
      (runOpts [⟨exArgs, [maxXY], 20⟩, ⟨exArgs, [minXY], 3⟩] world2).heap).1 =
    [[("y", 0), ("x", 0)], [("y", 0), ("x", 1)], [("y", 1), ("x", 0)], [("y", 1), ("x", 1)]] :=
  (C31_solve_partial _ world2 (world2_ok maxXY rfl).names rfl (by intro c hc; cases hc) (by intro c hc; cases hc) 30).1.trans (by decide)

end Satisfy.Props
