import Mathlib.Data.List.Pairwise
import Verif.Lemmas.Pareto
import Verif.Props.Optimize
/-!
# C53: several objectives
-/

namespace Satisfy.Props

/-- The bookkeeping parameters of two objectives are different objects. -/
def Apart (k k' : ObjCon) : Prop :=
  ∀ p x q y p' x' q' y', k.notSet = .param p x → k.bound = .param q y → k'.notSet = .param p' x' → k'.bound = .param q' y' →
    p ≠ p' ∧ p ≠ q' ∧ q ≠ p' ∧ q ≠ q'

theorem Apart.symm {k k' : ObjCon} (h : Apart k k') : Apart k' k := by
  intro p x q y p' x' q' y' h1 h2 h3 h4
  obtain ⟨a, b, c, d⟩ := h p' x' q' y' p x q y h3 h4 h1 h2
  exact ⟨a.symm, c.symm, b.symm, d.symm⟩

theorem makeConstraints_apart (os : List Objective) : ∀ (w w' : World) (ks : List ObjCon), NameInv w.model.vars →
    makeConstraints os w = (w', .ok ks) → ks.Pairwise Apart := by
  induction os with
  | nil =>
    intro w w' ks _ h
    simp only [makeConstraints, pure, Api.pure, Prod.mk.injEq, Except.ok.injEq] at h
    rw [← h.2]; exact .nil
  | cons o os ih =>
    intro w w' ks hi h
    obtain ⟨k, w1, hk, m1⟩ := makeConstraint_spec o w hi
    obtain ⟨ks2, w2, hks, m2⟩ := makeConstraints_spec os w1 m1.inv
    simp only [makeConstraints, Api.bind_apply, hk, hks, pure, Api.pure, Prod.mk.injEq, Except.ok.injEq] at h
    obtain ⟨_, rfl⟩ := h
    refine List.pairwise_cons.2 ⟨fun k' hk' => ?_, ih w1 w2 ks2 m1.inv hks⟩
    intro p x q y p' x' q' y' h1 h2 h3 h4
    obtain ⟨_, _, _, e1, e2⟩ := m1.vars
    obtain ⟨_, _, e3, l3, _⟩ := (m2.fresh k' hk').notSet
    obtain ⟨_, _, e4, l4, _⟩ := (m2.fresh k' hk').bound
    rw [e1] at h1; rw [e2] at h2; rw [e3] at h3; rw [e4] at h4
    cases h1; cases h2; cases h3; cases h4
    have := m1.nparams
    refine ⟨?_, ?_, ?_, ?_⟩ <;> omega

theorem mem_boundExpr_params {o : Objective} {p q i : Nat} {x y : Name} (h : i ∈ (boundExpr o (.param p x) (.param q y)).params) :
    i = p ∨ i = q ∨ i ∈ o.expr.params := by
  rcases boundExpr_cases o p q x y with ⟨u, hu, e⟩ | e <;> rw [e] at h <;> simp [Expr.params] at h
  · tauto
  · tauto

/-- The bound currently in force for an objective. -/
def bndK (k : ObjCon) (s : Heap) : Option Int :=
  match k.notSet, k.bound with
  | .param p _, .param q _ => bndOf p q s
  | _, _ => none

theorem bndK_eq {k : ObjCon} {p q : Nat} {x y : Name} (hp : k.notSet = .param p x) (hq : k.bound = .param q y) (s : Heap) :
    bndK k s = bndOf p q s := by simp [bndK, hp, hq]

section
variable {a : SolveArgs} {os : List Objective} {w w' : World} {ks : List ObjCon}

theorem made_apart (hm : Made w os ks w') (hsep : ks.Pairwise Apart) {k k' : ObjCon} (hk : k ∈ ks) (hk' : k' ∈ ks) (hne : k ≠ k') :
    Apart k k' ∧ k.con.id ≠ k'.con.id := by
  haveI : Std.Symm Apart := ⟨fun _ _ h => h.symm⟩
  exact ⟨hsep.forall hk hk' hne, fun h => hne (List.inj_on_of_nodup_map hm.ids hk hk' h)⟩

/-- Setting the bound of one objective leaves the constraints of the others as they were. -/
theorem ready_other (hok : OptOk a os w) (hm : Made w os ks w') (hsep : ks.Pairwise Apart) {k k' : ObjCon} (hk : k ∈ ks) (hk' : k' ∈ ks)
    (hne : k ≠ k') {s : Heap} (v : Int) :
    (∀ comp, Ready comp k s → Ready comp k (k'.setBound v s)) ∧ bndK k (k'.setBound v s) = bndK k s := by
  obtain ⟨hap, hid⟩ := made_apart hm hsep hk hk' hne
  have f := hm.fresh k hk
  obtain ⟨p, x, hp, hplo, _, _⟩ := f.notSet
  obtain ⟨q, y, hq, hqlo, _, _⟩ := f.bound
  obtain ⟨p', x', hp', hplo', _, _⟩ := (hm.fresh k' hk').notSet
  obtain ⟨q', y', hq', hqlo', _, _⟩ := (hm.fresh k' hk').bound
  obtain ⟨d1, d2, d3, d4⟩ := hap p x q y p' x' q' y' hp hq hp' hq'
  refine ⟨fun comp hr => ?_, ?_⟩
  · unfold Ready at hr ⊢
    cases comp with
    | false =>
      simp only [Bool.false_eq_true, if_false] at hr ⊢
      rw [setBound_fns _ _ _ hid, hr]
    | true =>
      simp only [if_true] at hr ⊢
      intro e he
      rw [setBound_fns _ _ _ hid, hr e he]
      congr 1
      refine asFunction_params (fun i hi => ?_)
      have he' := f.con
      rw [he, hp, hq] at he'
      simp only [CKind.expr.injEq] at he'
      subst he'
      rw [setBound_params hp' hq']
      simp only
      rcases mem_boundExpr_params hi with rfl | rfl | hi
      · rw [if_neg d2, if_neg d1]
      · rw [if_neg d4, if_neg d3]
      · have := hok.objs k.obj (by rw [← hm.objs]; exact List.mem_map.2 ⟨k, hk, rfl⟩) i hi
        rw [if_neg (by omega), if_neg (by omega)]
  · rw [bndK_eq hp hq, bndK_eq hp hq]
    unfold bndOf
    rw [setBound_params hp' hq']
    simp only
    rw [if_neg d2, if_neg d1, if_neg d4, if_neg d3]

/-- After a solution, every objective has the value of the solution as its bound. -/
theorem onSolution_all (hok : OptOk a os w) (hm : Made w os ks w') (hsep : ks.Pairwise Apart) (τ : Subst) :
    ∀ (l : List ObjCon), (∀ k ∈ l, k ∈ ks) → l.Nodup → ∀ s s', (∀ i < w.heap.nparams, s.params i = w.heap.params i) →
      onSolution l s τ = .ok s' →
      (∀ comp, ∀ k ∈ ks, Ready comp k s → Ready comp k s') ∧ (∀ k ∈ l, bndK k s' = some (k.obj.expr.val w.heap.params τ)) ∧ ∀ k ∈ ks, k ∉ l → bndK k s' = bndK k s := by
  intro l
  induction l with
  | nil =>
    intro _ _ s s' _ h
    simp only [onSolution, Except.ok.injEq] at h
    subst h
    exact ⟨fun _ _ _ h => h, by simp, fun _ _ _ => rfl⟩
  | cons k0 l ih =>
    intro hsub hnd s s' hpar h
    simp only [onSolution, ObjCon.addSolution, bind_eq_ok, pure_res, Except.ok.injEq] at h
    obtain ⟨s1, ⟨v, hv, rfl⟩, h2⟩ := h
    have hk0 := hsub k0 (by simp)
    have f := hm.fresh k0 hk0
    obtain ⟨p, x, hp, _⟩ := f.notSet
    obtain ⟨q, y, hq, _⟩ := f.bound
    obtain ⟨hn, hnd⟩ := List.nodup_cons.1 hnd
    obtain ⟨i1, i2, i3⟩ := ih (fun k hk => hsub k (by simp [hk])) hnd _ s'
      (fun i hi => by rw [← (setBound_steady f v s).1 i hi]; exact hpar i hi) h2
    refine ⟨fun comp k hk hr => i1 comp k hk ?_, ?_, ?_⟩
    · by_cases he : k = k0
      · subst he; exact ready_setBound f.con hr v
      · exact (ready_other hok hm hsep hk hk0 he v).1 comp hr
    · intro k hk
      rcases List.mem_cons.1 hk with rfl | hk
      · rw [i3 k hk0 hn, bndK_eq hp hq]
        unfold bndOf
        rw [(safe_old hok (by rw [← hm.objs]; exact List.mem_map.2 ⟨k, hk0, rfl⟩) hpar).2] at hv
        rw [setBound_params hp hq, val_of_ok _ _ hv]
        simp [f.ne p x q y hp hq]
      · exact i2 k hk
    · intro k hk hkn
      simp only [List.mem_cons, not_or] at hkn
      rw [i3 k hk hkn.2]
      exact (ready_other hok hm hsep hk hk0 hkn.1 v).2

theorem made_nodup (hm : Made w os ks w') : ks.Nodup := List.Nodup.of_map _ hm.ids

/-- What the objectives have to be like. -/
structure ObjsOk (a : SolveArgs) (w : World) (os : List Objective) : Prop where
  declared : ∀ o ∈ os, ∀ x ∈ o.expr.vars, (w.model.domain? x).isSome
  several : ∀ o ∈ os, o.expr.vars.length ≠ 1
  safe : a.solver.compile = true → ∀ o ∈ os, o.Safe w.heap.params
  valued : ∀ o ∈ os, o.Valued w.model w.heap.params
  improving : ∀ o ∈ os, ∀ x ∈ o.expr.vars, o.Improving w.model w.heap.params x

theorem opt_mb (hok : OptOk a os w) (hm : Made w os ks w') (hsep : ks.Pairwise Apart) (hos : ObjsOk a w os) {H : Heap} {info : Info}
    (hpar : ∀ i < w.heap.nparams, H.params i = w.heap.params i)
    (hinv : SetupInv w'.model H (w'.model.constraints ++ (a.withObjectives ks).adds) info) {names : List Name}
    (hmem : ∀ x, x ∈ names ↔ (w.model.domain? x).isSome) :
    MB (candidates info) (onSolution ks) names ks (·.obj) (Accepts info H (Old w.heap)) (InDom w.model)
      (fun s => Steady w.heap H s ∧ ∀ k ∈ ks, Ready a.solver.compile k s) bndK (fun k σ => k.obj.expr.val w.heap.params σ)
      (fun k => k.obj.expr.vars) := by
  have hobj : ∀ k ∈ ks, k.obj ∈ os := fun k hk => by rw [← hm.objs]; exact List.mem_map.2 ⟨k, hk, rfl⟩
  have hkind : ∀ k ∈ ks, ∃ p x q y, k.notSet = .param p x ∧ k.bound = .param q y ∧ k.con.kind = .expr (boundExpr k.obj (.param p x) (.param q y)) := by
    intro k hk
    have f := hm.fresh k hk
    obtain ⟨p, x, hp, _⟩ := f.notSet
    obtain ⟨q, y, hq, _⟩ := f.bound
    exact ⟨p, x, q, y, hp, hq, by rw [f.con, hp, hq]⟩
  have hkvars : ∀ k ∈ ks, ∀ z, z ∈ k.con.vars ↔ z ∈ k.obj.expr.vars := by
    intro k hk z
    obtain ⟨p, x, q, y, _, _, h⟩ := hkind k hk
    simp only [Constraint.vars, CKind.vars, h]; exact mem_boundExpr_vars k.obj p q x y z
  have hnm : w'.model.vars.keys.Nodup := hm.inv.1
  have hparS : ∀ s, Steady w.heap H s → ∀ i < w.heap.nparams, s.params i = w.heap.params i := fun s hs i hi => by
    rw [← hs.1 i hi]; exact hpar i hi
  have hdom : ∀ z d, info.vars.get? z = some d → ∃ d0, w.model.domain? z = some d0 ∧ d.Sublist d0 := by
    intro z d hd
    obtain ⟨d0, hd0, hsub, _⟩ := hinv.dom z d hd
    rw [pureVars_get? hnm, made_domain hm] at hd0
    exact ⟨d0, hd0, hsub⟩
  have hcase : ∀ z, ∀ c ∈ info.cons z, Old w.heap c ∨ ∃ k ∈ ks, c = k.con := by
    intro z c hc
    rw [hinv.cons] at hc
    have hc := (List.mem_filter.1 hc).1
    simp only [SolveArgs.withObjectives, hm.cons, ← List.append_assoc] at hc
    rcases List.mem_append.1 hc with hc | hc
    · exact .inl (hok.old c hc)
    · obtain ⟨k, hk, rfl⟩ := List.mem_map.1 hc
      exact .inr ⟨k, hk, rfl⟩
  constructor
  · rintro s τ s' ⟨hs, hr⟩ _ _ hact
    obtain ⟨h1, h2, _⟩ := onSolution_all hok hm hsep τ ks (fun _ h => h) (made_nodup hm) s s' (hparS s hs) hact
    exact ⟨⟨hs.trans (onSolution_steady hm.fresh hact), fun k hk => h1 _ k hk (hr k hk)⟩, h2⟩
  · intro z σ v hQ hacc
    obtain ⟨⟨d, hd, hvd⟩, _⟩ := hacc
    obtain ⟨d0, hd0, hsub⟩ := hdom z d hd
    exact inDom_set hQ ⟨d0, hd0, hsub.mem hvd⟩
  · intro k hk y hy
    exact (hmem y).2 (hos.declared _ (hobj k hk) y hy)
  · intro k _ σ τ h
    simp only [Expr.val]
    rw [eval_congr _ _ _ _ h]
  · rintro s pre x post σ vs hnames hkeys ⟨hs, hr⟩ hQ hc
    obtain ⟨d, hd, hsub, hmemv⟩ := candidates_ok hc
    obtain ⟨d0, hd0, hsub0⟩ := hdom x d hd
    -- an objective whose other variables are bound
    have hoth : ∀ k ∈ ks, (∀ y ∈ k.obj.expr.vars, y ≠ x → y ∈ pre) →
        ∀ z ∈ k.obj.expr.vars, z ≠ x → ∃ d v, w.model.domain? z = some d ∧ v ∈ d ∧ σ.get? z = some v := by
      intro k _ hcl z hz hzx
      obtain ⟨u, hu⟩ := Option.ne_none_iff_exists'.1 ((hkeys z).2 (hcl z hz hzx))
      obtain ⟨dz, hdz, huz⟩ := hQ z u hu
      exact ⟨dz, u, hdz, huz, hu⟩
    have hbound : ∀ k ∈ ks, (∀ y ∈ k.obj.expr.vars, y ≠ x → y ∈ pre) → ∀ v ∈ d0,
        ∃ r, k.obj.expr.eval w.heap.params (σ.set x v) = .ok r := by
      intro k hk hcl v hv
      refine hos.valued _ (hobj k hk) _ (fun z hz => ?_)
      by_cases hzx : z = x
      · subst hzx; exact ⟨d0, v, hd0, hv, by simp [Dict.get?_set]⟩
      · obtain ⟨dz, u, h1, h2, h3⟩ := hoth k hk hcl z hz hzx
        exact ⟨dz, u, h1, h2, by rw [Dict.get?_set_ne _ _ (Ne.symm hzx)]; exact h3⟩
    have hkin : ∀ k ∈ ks, x ∈ k.obj.expr.vars → k.con ∈ info.cons x := by
      intro k hk hx
      rw [hinv.cons, List.mem_filter]
      refine ⟨by simp only [SolveArgs.withObjectives, List.mem_append]; exact .inr (.inr (List.mem_map.2 ⟨k, hk, rfl⟩)), ?_⟩
      obtain ⟨p, x', q, y', _, _, h⟩ := hkind k hk
      have h1 : k.con.isAD = false := by simp [Constraint.isAD, h]
      have h2 : k.con.vars.length ≠ 1 := by
        simp only [Constraint.vars, CKind.vars, h, boundExpr_vars_length]; exact hos.several _ (hobj k hk)
      simp [h1, h2, (hkvars k hk x).2 hx]
    have hkun : ∀ k ∈ ks, (∀ y ∈ k.obj.expr.vars, y ≠ x → y ∈ pre) → ∀ v ∈ d0, (k.con.unsatisfied s (σ.set x v) = .ok false ↔
        ∀ B, bndK k s = some B → ¬ k.obj.le B (k.obj.expr.val w.heap.params (σ.set x v))) := by
      intro k hk hcl v hv
      obtain ⟨r, hrv⟩ := hbound k hk hcl v hv
      obtain ⟨p, x', q, y', hp, hq, _⟩ := hkind k hk
      rw [unsat_of_bound (fun z hz => by
        by_cases hzx : z = x
        · subst hzx; simp [Dict.get?_set]
        · rw [Dict.get?_set_ne _ _ (Ne.symm hzx)]; exact (hkeys z).2 (hcl z ((hkvars k hk z).1 hz) hzx))]
      have hold := safe_old hok (hobj k hk) (hparS s hs)
      rw [con_evaluate (hm.fresh k hk) (hr k hk) (fun hc => hold.1.1 (hos.safe hc _ (hobj k hk))) hp hq
        (v := r) (by rw [hold.2]; exact hrv)]
      have hpb := pyOr_bound k.obj (s.params p) r (s.params q)
      rw [val_of_ok _ _ hrv, bndK_eq hp hq]
      simp only [ok_bind, pure_res, Except.ok.injEq, Bool.not_eq_false', truthy, bndOf, bne_iff_ne, decide_eq_true_eq]
      rw [hpb]
      constructor
      · intro h B hB
        split at hB
        · cases hB; exact h (by assumption)
        · cases hB
      · intro h h0; exact h _ (by rw [if_pos h0])
    refine ⟨fun v => ⟨fun hv => ?_, ?_⟩, ?_⟩
    · refine ⟨accepts_of_candidates (fun _ c _ hc σ => steady_evaluate hs.symm hc σ) hc v hv, ?_⟩
      intro k hk hx hcl
      obtain ⟨h1, h2⟩ := (hmemv v).1 hv
      exact (hkun k hk hcl v (hsub0.mem h1)).1 ((acceptable_true.1 h2).2 _ (hkin k hk hx))
    · rintro ⟨⟨⟨d', hd', hv⟩, had, hcons⟩, hB⟩
      rw [hd] at hd'; cases hd'
      refine (hmemv v).2 ⟨hv, acceptable_true.2 ⟨had, fun c hcz => ?_⟩⟩
      rcases hcase x c hcz with ho | ⟨k, hk, rfl⟩
      · rw [← unsatisfied_eq_of_evaluate (steady_evaluate hs ho _)]; exact hcons c hcz ho
      · have hx : x ∈ k.obj.expr.vars := by
          rw [hinv.cons] at hcz
          have := (List.mem_filter.1 hcz).2
          simp only [Bool.and_eq_true, decide_eq_true_eq] at this
          exact (hkvars k hk x).1 this.2
        by_cases hcl : ∀ y ∈ k.obj.expr.vars, y ≠ x → y ∈ pre
        · exact (hkun k hk hcl v (hsub0.mem hv)).2 (hB k hk hx hcl)
        · push Not at hcl
          obtain ⟨y, hy, hyx, hyp⟩ := hcl
          refine unsat_of_missing ((hkvars k hk y).2 hy) ?_
          rw [Dict.get?_set_ne _ _ (Ne.symm hyx)]
          by_contra hne
          exact hyp ((hkeys y).1 hne)
    · intro k hk hx hcl
      have hpw := hos.improving _ (hobj k hk) x hx σ (hoth k hk hcl) d0 hd0
      refine ((hpw.imp_of_mem (S := fun v u => k.obj.le (k.obj.expr.val w.heap.params (σ.set x u))
        (k.obj.expr.val w.heap.params (σ.set x v))) ?_).sublist (hsub.trans hsub0))
      intro v u hv hu h
      obtain ⟨rv, hrv⟩ := hbound k hk hcl v hv
      obtain ⟨ru, hru⟩ := hbound k hk hcl u hu
      rw [val_of_ok _ _ hrv, val_of_ok _ _ hru]
      exact h _ _ hrv hru

/-- Everything about the search of `optimize` with these objectives. -/
theorem opt_search (hok : OptOk a os w) (hne : os ≠ []) (hos : ObjsOk a w os) (hm : Made w os ks w') (hsep : ks.Pairwise Apart)
    {H : Heap} {info : Info} (hset : setup a.solver.compile w'.model (a.withObjectives ks).adds w'.heap = (H, .ok info))
    {names : List Name} (hperm : names.Perm w.model.pureVars.keys) :
    MBPost ks (·.obj) (fun s => Steady w.heap H s ∧ ∀ k ∈ ks, Ready a.solver.compile k s) bndK (fun k σ => k.obj.expr.val w.heap.params σ) H
      (dfs (candidates info) (onSolution ks) names [] H).1 (dfs (candidates info) (onSolution ks) names [] H).2 ∧
    ∀ s', (dfs (candidates info) (onSolution ks) names [] H).2 = .ok s' → ∀ τ, Path (Accepts info H (Old w.heap)) names [] τ →
      ∃ k ∈ ks, AtLeast k.obj (bndK k s') (k.obj.expr.val w.heap.params τ) := by
  have hok' := made_solveOk hok hm
  obtain ⟨hH, hinv, _⟩ := setup_spec (comp := a.solver.compile) hok'.ids hset
  rw [← hH] at hinv
  have hpar : ∀ i < w.heap.nparams, H.params i = w.heap.params i := by
    rw [hH]; exact start_params (a := a) hm _ _
  have hnd : names.Nodup := hperm.nodup_iff.2 (pureVars_nodup (by have := hok.solve.wf.names; exact this))
  have hmem : ∀ x, x ∈ names ↔ (w.model.domain? x).isSome := by
    intro x
    rw [hperm.mem_iff, ← pureVars_get? hok.solve.wf.names]
    constructor
    · intro h; obtain ⟨v, hv⟩ := Dict.get?_isSome_of_mem_keys h; simp [hv]
    · intro h; obtain ⟨v, hv⟩ := Option.isSome_iff_exists.1 h; exact Dict.mem_keys_of_get? hv
  have hks : ks ≠ [] := by
    rintro rfl
    exact hne (by rw [← hm.objs]; rfl)
  have hready : ∀ k ∈ ks, Ready a.solver.compile k H := by
    intro k hk
    have := ready_start hok hm (k := k) hk
    rw [hH]; exact this
  obtain ⟨h1, h2⟩ := (opt_mb hok hm hsep hos hpar hinv hmem).main hks hnd names [] [] H rfl (by intro y; simp)
    (by intro x v h; simp at h) ⟨.refl _ _, hready⟩
    (by
      intro k hk _ B hB
      obtain ⟨p, x, hp, _, _, hp1⟩ := (hm.fresh k hk).notSet
      obtain ⟨q, y, hq, _, _, _⟩ := (hm.fresh k hk).bound
      rw [bndK_eq hp hq] at hB
      unfold bndOf at hB
      rw [hH, compileAll_params, hp1] at hB
      simp at hB)
  exact ⟨h1, fun s' hs' => (h2 s' hs').2⟩

/-- An objective has a value for every assignment. -/
theorem valued_assignment {o : Objective} {m : Model} {ρ : Store} (hv : o.Valued m ρ) (hd : ∀ x ∈ o.expr.vars, (m.domain? x).isSome)
    {τ : Subst} (hτ : Assignment m τ) : ∃ v, o.expr.eval ρ τ = .ok v := by
  refine hv τ (fun y hy => ?_)
  obtain ⟨u, hu⟩ := Dict.get?_isSome_of_mem_keys ((hτ.keys y).2 (hd y hy))
  obtain ⟨d, hdy, hud⟩ := hτ.dom y u hu
  exact ⟨d, u, hdy, hud, hu⟩

end

/-! ## The claim -/

/-- `τ'` is at least as good as `τ` in every objective and better in one. -/
def Dominates (ρ : Store) (os : List Objective) (τ' τ : Subst) : Prop :=
  (∀ o ∈ os, ∃ v v', o.expr.eval ρ τ = .ok v ∧ o.expr.eval ρ τ' = .ok v' ∧ o.le v' v) ∧
  ∃ o ∈ os, ∃ v v', o.expr.eval ρ τ = .ok v ∧ o.expr.eval ρ τ' = .ok v' ∧ ¬ o.le v v'

/-- C53 as one would like it: a result that says it is optimal is not dominated by another solution. -/
def C53 : Prop :=
  ∀ (a : SolveArgs) (os : List Objective) (w : World), OptOk a os w → w.model.solvable = true → ObjsOk a w os →
    ∀ (n : Nat) (r : OptSolution) (τ : Subst), optimalSolution (optimizeRun a os n w) = some (.ok r) → r.isOptimal = true →
      r.solution = some τ → ∀ τ', IsSolution w.model (w.model.constraints ++ a.adds) (optimizeRun a os n w).2.2.heap τ' →
        ¬ Dominates w.heap.params os τ' τ

/-- C53, the part that is true: no solution is better in all objectives.
Missing: a solution equal in one objective and better in the others is possible, see `C53_refuted`; for objectives over one variable and
objectives that get worse along a domain the claim is false even for one objective, see `C30_refuted`. -/
theorem C53_partial {a : SolveArgs} {os : List Objective} {w : World} (hok : OptOk a os w) (hsol : w.model.solvable = true)
    (hvar : ∃ x, (w.model.domain? x).isSome) (hne : os ≠ []) (hos : ObjsOk a w os) (n : Nat) (r : OptSolution) (τ : Subst)
    (hr : optimalSolution (optimizeRun a os n w) = some (.ok r)) (hopt : r.isOptimal = true) (hτ : r.solution = some τ) (τ' : Subst)
    (hτ' : IsSolution w.model (w.model.constraints ++ a.adds) (optimizeRun a os n w).2.2.heap τ') :
    ∃ o ∈ os, ∃ v v', o.expr.eval w.heap.params τ = .ok v ∧ o.expr.eval w.heap.params τ' = .ok v' ∧ o.le v v' := by
  have hflag := (C29_flag a os w n r hr)
  have hmemτ := hflag.2 τ hτ
  have hassτ := (opt_sound hok n τ hmemτ).1
  have hint := (hflag.1.1 hopt).2
  unfold optimalSolution at hr
  split at hr
  · rename_i hend
    simp only [Option.some.injEq, Except.ok.injEq] at hr
    subst hr
    simp only at hτ
    obtain ⟨ks, w', hmk, hm⟩ := makeConstraints_spec os w hok.names
    have hsep := makeConstraints_apart os w w' ks hok.names hmk
    have hok' := made_solveOk hok hm
    rw [optimizeRun_eq hmk] at hend hint hτ hτ'
    simp only at hend hint hτ hτ'
    obtain ⟨H, info, hset, hstart, hperm, houts, hlast⟩ := run_natural (a := a.withObjectives ks) hok'.shuffle hok'.wf.names
      (by rw [hm.solvable]; exact hsol) (by simpa only [made_domain hm] using hvar) (onSolution ks) hend hint
    obtain ⟨hH, hinv, _⟩ := setup_spec hok'.ids hset
    rw [← hH] at hinv
    generalize orderVars (a.withObjectives ks).solver.policy (a.withObjectives ks).shuffle w'.model info = names at *
    have hperm' := hperm
    rw [made_pureVars hm] at hperm'
    obtain ⟨_, hall⟩ := opt_search hok hne hos hm hsep hset hperm'
    have hst := opt_steady (a := a) hm n
    rw [hstart] at hst
    simp only at hst
    obtain ⟨τ2, hpath, hsame⟩ := path_accepts (R := Old w.heap) (τ := τ') hok'.wf.names hinv
      (fun c hc => by rw [hH]; exact compileAll_fnOk _ hok'.ids hok'.fns c hc) (names := names) hperm
      ((made_assignment hm τ').2 hτ'.toAssignment)
      (by
        intro c hc hcase
        simp only [SolveArgs.withObjectives, hm.cons, ← List.append_assoc] at hc
        rcases List.mem_append.1 hc with hc | hc
        · obtain ⟨r, hr, hr0⟩ := hτ'.con c hc
          exact ⟨r, by rw [steady_evaluate hst (hok.old c hc)]; exact hr, hr0⟩
        · obtain ⟨k, hk, rfl⟩ := List.mem_map.1 hc
          have f := hm.fresh k hk
          obtain ⟨p, x, hp, _⟩ := f.notSet
          obtain ⟨q, y, hq, _⟩ := f.bound
          have hkind := f.con
          rw [hp, hq] at hkind
          rcases hcase with h | h | h
          · simp [Constraint.isAD, hkind] at h
          · simp only [Constraint.vars, CKind.vars, hkind, boundExpr_vars_length] at h
            exact absurd h (hos.several k.obj (by rw [← hm.objs]; exact List.mem_map.2 ⟨k, hk, rfl⟩))
          · have := h.1; have := f.idLo; omega)
    obtain ⟨k, hk, B, hB, hle⟩ := hall _ hlast τ2 hpath
    have ho : k.obj ∈ os := by rw [← hm.objs]; exact List.mem_map.2 ⟨k, hk, rfl⟩
    obtain ⟨v, hv⟩ := valued_assignment (hos.valued _ ho) (hos.declared _ ho) hassτ
    obtain ⟨v', hv'⟩ := valued_assignment (hos.valued _ ho) (hos.declared _ ho) hτ'.toAssignment
    refine ⟨k.obj, ho, v, v', hv, hv', ?_⟩
    -- the bound at the end is the value of the last solution
    have hbnd : bndK k (solveRun (a.withObjectives ks) w'.model (onSolution ks) n w'.heap).2.2 = some v := by
      rcases dfs_last _ _ _ _ hlast with ⟨h, _⟩ | ⟨pre', τ1, s1, h, hact⟩
      · rw [houts, h] at hτ; simp at hτ
      · rw [houts, h] at hτ
        simp only [List.getLast?_append, List.getLast?_singleton, Option.some_or, Option.some.injEq] at hτ
        subst hτ
        have hst2 := onSolution_steady hm.fresh hact
        have : ∀ i < w.heap.nparams, s1.params i = w.heap.params i := by
          intro i hi
          rw [hst2.1 i hi, ← hst.1 i hi, hH]
          exact start_params (a := a) hm _ _ i hi
        rw [(onSolution_all hok hm hsep _ ks (fun _ h => h) (made_nodup hm) s1 _ this hact).2.1 k hk, val_of_ok _ _ hv]
    rw [hbnd] at hB
    cases hB
    rw [show k.obj.expr.val w.heap.params τ2 = v' from val_of_ok _ _ (by
      rw [eval_congr _ τ2 τ' _ (fun z _ => hsame z)]; exact hv')] at hle
    exact hle
  · simp at hr
  · simp at hr

/-- C53, progress: at every point of the iteration, with any limits and any clock, each solution is at least as good as all earlier ones in
every objective. -/
theorem C53_progress_partial {a : SolveArgs} {os : List Objective} {w : World} (hok : OptOk a os w) (hos : ObjsOk a w os) (n : Nat) :
    (optimizeRun a os n w).1.Pairwise (fun σ τ => ∀ o ∈ os, ∃ v v', o.expr.eval w.heap.params σ = .ok v ∧
      o.expr.eval w.heap.params τ = .ok v' ∧ o.le v' v) := by
  by_cases hne : os = []
  · subst hne; simp [List.pairwise_iff_forall_sublist]
  have hass : ∀ τ ∈ (optimizeRun a os n w).1, Assignment w.model τ := fun τ hτ => (opt_sound hok n τ hτ).1
  obtain ⟨ks, w', hmk, hm⟩ := makeConstraints_spec os w hok.names
  have hsep := makeConstraints_apart os w w' ks hok.names hmk
  have hok' := made_solveOk hok hm
  rw [optimizeRun_eq hmk] at hass ⊢
  simp only at hass ⊢
  cases startCase (a := a.withObjectives ks) w'.model w'.heap hok'.shuffle with
  | idle h1 _ => rw [solveRun_idle (show Phase.terminal .finished from trivial) h1]; exact .nil
  | fail e h1 _ _ => rw [solveRun_idle (ph := .raised e) trivial h1]; exact .nil
  | go H info _ hset hst hnil hp =>
    have hp' := hp
    rw [made_pureVars hm] at hp'
    obtain ⟨hpost, _⟩ := opt_search hok hne hos hm hsep hset hp'
    have hnd := hp.nodup_iff.2 (pureVars_nodup hok'.wf.names)
    have hpre := (run_first (a.withObjectives ks).cfg (candidates info) (onSolution ks) _ hnil hnd ((a.withObjectives ks).clock 0) H).2 n
    have heq : (solveRun (a.withObjectives ks) w'.model (onSolution ks) n w'.heap).1 =
        (sysRun (a.withObjectives ks).cfg (candidates info) (onSolution ks) n
          (Gen.first (orderVars (a.withObjectives ks).solver.policy (a.withObjectives ks).shuffle w'.model info) ((a.withObjectives ks).clock 0)) H).1 := by
      rw [solveRun_eq, hst]
    rw [← heq] at hpre
    refine (hpost.chain.sublist hpre.sublist).imp_of_mem (fun {σ τ} hσ hτ h o ho => ?_)
    obtain ⟨v, hv⟩ := valued_assignment (hos.valued _ ho) (hos.declared _ ho) (hass σ hσ)
    obtain ⟨v', hv'⟩ := valued_assignment (hos.valued _ ho) (hos.declared _ ho) (hass τ hτ)
    rw [← hm.objs] at ho
    obtain ⟨k, hk, rfl⟩ := List.mem_map.1 ho
    have := h k hk
    rw [val_of_ok _ _ hv, val_of_ok _ _ hv'] at this
    exact ⟨v, v', hv, hv', this⟩

/-! ## Concrete cases -/

/-- `x`, `y`, `u`, `v` in `(0, 1)`, no constraint. -/
def world4 : World :=
  ⟨⟨[("x", ⟨some [0, 1], none⟩), ("y", ⟨some [0, 1], none⟩), ("u", ⟨some [0, 1], none⟩), ("v", ⟨some [0, 1], none⟩)], [], true⟩, plainHeap 0⟩

/-- `Maximize(x + y)` and `Maximize(u + v)`. -/
def maxBoth : List Objective := [⟨true, .bin .add (.var "x") (.var "y")⟩, ⟨true, .bin .add (.var "u") (.var "v")⟩]

theorem world4_domain {x : Name} {d : List Int} (h : world4.model.domain? x = some d) : d = [0, 1] := by
  obtain ⟨i, hi, hd⟩ := domain_mem h
  simp only [world4, List.mem_cons, Prod.mk.injEq, List.not_mem_nil, or_false] at hi
  rcases hi with ⟨rfl, rfl⟩ | ⟨rfl, rfl⟩ | ⟨rfl, rfl⟩ | ⟨rfl, rfl⟩ <;> simpa using hd.symm

theorem sum_improving {u v : Name} (huv : u ≠ v) (x : Name) (hx : x = u ∨ x = v) :
    (⟨true, .bin .add (.var u) (.var v)⟩ : Objective).Improving world4.model world4.heap.params x := by
  intro σ h d hd
  have hd := world4_domain hd
  subst hd
  have hvars : ∀ y, y ∈ (Expr.bin BOp.add (.var u) (.var v)).vars ↔ y = u ∨ y = v := by
    intro y; simp [Expr.vars, mem_dedupInto]
  simp only [List.pairwise_cons, List.mem_cons, List.not_mem_nil, or_false, forall_eq, IsEmpty.forall_iff, implies_true, List.Pairwise.nil, and_true]
  intro a b ha hb
  rcases hx with rfl | rfl
  · obtain ⟨_, c, _, _, hc⟩ := h v ((hvars v).2 (.inr rfl)) (Ne.symm huv)
    simp [Expr.eval, Dict.get?_set, huv, hc, BOp.op] at ha hb
    subst ha; subst hb
    simp [Objective.le]
  · obtain ⟨_, c, _, _, hc⟩ := h u ((hvars u).2 (.inl rfl)) huv
    simp [Expr.eval, Dict.get?_set, Ne.symm huv, hc, BOp.op] at ha hb
    subst ha; subst hb
    simp [Objective.le]

theorem maxBoth_ok : OptOk exArgs maxBoth world4 :=
  optOk_check (fun _ => .refl _) rfl (by decide) (by decide) (by decide) (by decide) (by intro c hc; cases hc) (by intro c hc; cases hc)
    (by decide)

theorem maxBoth_objs : ObjsOk exArgs world4 maxBoth where
  declared := by decide
  several := by decide
  safe := by
    intro _ o ho
    simp only [maxBoth, List.mem_cons, List.not_mem_nil, or_false] at ho
    rcases ho with rfl | rfl <;> exact ⟨⟨10, rfl, by decide⟩, by decide⟩
  valued := by
    intro o ho σ h
    simp only [maxBoth, List.mem_cons, List.not_mem_nil, or_false] at ho
    rcases ho with rfl | rfl
    · obtain ⟨_, a, _, _, ha⟩ := h "x" (by decide)
      obtain ⟨_, b, _, _, hb⟩ := h "y" (by decide)
      exact ⟨a + b, by simp [Expr.eval, ha, hb, BOp.op]⟩
    · obtain ⟨_, a, _, _, ha⟩ := h "u" (by decide)
      obtain ⟨_, b, _, _, hb⟩ := h "v" (by decide)
      exact ⟨a + b, by simp [Expr.eval, ha, hb, BOp.op]⟩
  improving := by
    intro o ho x hx
    simp only [maxBoth, List.mem_cons, List.not_mem_nil, or_false] at ho
    rcases ho with rfl | rfl
    · exact sum_improving (by decide) x (by simpa [Expr.vars, mem_dedupInto] using hx)
    · exact sum_improving (by decide) x (by simpa [Expr.vars, mem_dedupInto] using hx)

theorem maxBoth_run : (optimizeRun exArgs maxBoth 60 world4).1 =
      [[("v", 0), ("u", 0), ("y", 0), ("x", 0)], [("v", 0), ("u", 0), ("y", 0), ("x", 1)], [("v", 0), ("u", 0), ("y", 1), ("x", 1)]] ∧
    optimalSolution (optimizeRun exArgs maxBoth 60 world4) = some (.ok ⟨true, some [("v", 0), ("u", 0), ("y", 1), ("x", 1)]⟩) := by
  decide +kernel

/-- C53 is false of the code: `Maximize(x + y)` and `Maximize(u + v)` for `x`, `y`, `u`, `v` in `(0, 1)` give `x = y = 1`, `u = v = 0`,
said to be optimal; with `x = y = u = v = 1` the first objective is the same and the second is 2 instead of 0. Later solutions have to be
strictly better in all the objectives whose constraints are looked at again. -/
theorem C53_refuted : ¬ C53 := by
  intro h
  refine h exArgs maxBoth world4 maxBoth_ok rfl maxBoth_objs 60 _ _ maxBoth_run.2 rfl rfl [("x", 1), ("y", 1), ("u", 1), ("v", 1)]
    ⟨assignment_check (by decide) (by decide) (by decide) (by decide) (by decide), by intro c hc; cases hc⟩ ⟨?_, ?_⟩
  · intro o ho
    simp only [maxBoth, List.mem_cons, List.not_mem_nil, or_false] at ho
    rcases ho with rfl | rfl
    · exact ⟨2, 2, rfl, rfl, by decide⟩
    · exact ⟨0, 2, rfl, rfl, by decide⟩
  · exact ⟨⟨true, .bin .add (.var "u") (.var "v")⟩, by simp [maxBoth], 0, 2, rfl, rfl, by decide⟩

/-- The hypotheses of `C53_partial` can be met. -/
example (τ' : Subst)
    (hτ' : IsSolution world4.model (world4.model.constraints ++ exArgs.adds) (optimizeRun exArgs maxBoth 60 world4).2.2.heap τ') :
    ∃ o ∈ maxBoth, ∃ v v', o.expr.eval world4.heap.params [("v", 0), ("u", 0), ("y", 1), ("x", 1)] = .ok v ∧
      o.expr.eval world4.heap.params τ' = .ok v' ∧ o.le v v' :=
  C53_partial maxBoth_ok rfl ⟨"x", rfl⟩ (by simp [maxBoth]) maxBoth_objs 60 _ _ maxBoth_run.2 rfl rfl τ' hτ'

/-- Three solutions, each at least as good as the ones before. -/
example : (optimizeRun exArgs maxBoth 60 world4).1.length = 3 ∧
    (optimizeRun exArgs maxBoth 60 world4).1.Pairwise (fun σ τ => ∀ o ∈ maxBoth, ∃ v v', o.expr.eval world4.heap.params σ = .ok v ∧
      o.expr.eval world4.heap.params τ = .ok v' ∧ o.le v' v) :=
  ⟨by rw [maxBoth_run.1]; rfl, C53_progress_partial maxBoth_ok maxBoth_objs 60⟩

end Satisfy.Props
