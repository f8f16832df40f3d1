import Verif.Domains
import Verif.Lemmas.Build
/-! Domains as objects: the solver works on the values the objects have. -/

namespace Satisfy
open Props

section
variable {α β : Type}

theorem Dict.get?_map (d : Dict α) (f : Name → α → β) (x : Name) :
    Dict.get? (d.map (fun p => (p.1, f p.1 p.2)) : Dict β) x = (d.get? x).map (f x) := by
  induction d with
  | nil => rfl
  | cons p d ih =>
    obtain ⟨k, v⟩ := p
    simp only [List.map_cons, Dict.get?]
    split
    · next h => subst h; rfl
    · exact ih

theorem Dict.map_set (d : Dict α) (f : α → β) (x : Name) (v : α) :
    (Dict.set d x v).map (fun p => (p.1, f p.2)) = Dict.set (d.map (fun p => (p.1, f p.2)) : Dict β) x (f v) := by
  induction d with
  | nil => rfl
  | cons p d ih =>
    obtain ⟨k, w⟩ := p
    simp only [List.map_cons, Dict.set]
    split
    · rfl
    · simp only [List.map_cons, ih]

end

theorem live_domain (w : RWorld) (x : Name) :
    w.live.domain? x = (w.world.model.domain? x).map (fun _ => ((w.dom x).obj w.objs).values) := by
  have h := Dict.get?_map w.world.model.vars (β := VarInfo) (fun x i => { i with domain := i.domain.map (fun _ => ((w.dom x).obj w.objs).values) }) x
  have h' : w.live.vars.get? x = (w.world.model.vars.get? x).map (fun i => { i with domain := i.domain.map (fun _ => ((w.dom x).obj w.objs).values) }) := h
  unfold Model.domain?
  rw [h']
  cases w.world.model.vars.get? x <;> rfl

theorem live_pure (w : RWorld) : w.live.pureVars = (RInfo.init w).vars.map (fun p => (p.1, (p.2.obj w.objs).values)) := by
  unfold Model.pureVars RWorld.live RInfo.init
  simp only
  induction w.world.model.vars with
  | nil => rfl
  | cons p d ih =>
    obtain ⟨k, i⟩ := p
    simp only [List.map_cons, List.filterMap_cons]
    cases i.domain with
    | none => simpa using ih
    | some d => simpa using ih

theorem init_view (w : RWorld) : (RInfo.init w).view w.objs = Info.init w.live := by
  unfold RInfo.view
  rw [← live_pure]
  rfl

theorem rsetupOne_view (o : Objs) (comp : Bool) (c : Constraint) (h : Heap) (ri : RInfo) :
    ((rsetupOne o comp c h ri).1, (rsetupOne o comp c h ri).2.map (RInfo.view o)) = setupOne comp c h (ri.view o) := by
  unfold rsetupOne
  cases hs : setupOne comp c h (ri.view o) with
  | mk h' r =>
    cases r with
    | error e => rfl
    | ok info =>
      simp only [Except.map, Prod.mk.injEq, true_and, Except.ok.injEq]
      unfold RInfo.view
      suffices hv : (retuple c info ri.vars).map (fun (p : Name × DomVal) => (p.1, (p.2.obj o).values)) = info.vars by
        simp only
        rw [hv]
      symm
      unfold retuple
      have hview : (ri.view o).vars = ri.vars.map (fun p => (p.1, (p.2.obj o).values)) := rfl
      have plain : ∀ x : Name, c.vars = [x] → (∀ ns, c.kind ≠ .allDiff ns) → info.vars = (match info.vars.get? x with
            | some d => ri.vars.set x (.tuple d)
            | none => ri.vars).map (fun (p : Name × DomVal) => (p.1, (p.2.obj o).values)) := by
        intro x hx hk
        have hcase : setupOne comp c h (ri.view o) = (match (ri.view o).vars.get? x with
            | some d => match filterDomain (if comp then c.compile h else h) c x d with
              | .ok d' => ((if comp then c.compile h else h), .ok { (ri.view o) with bounds := addBounds [x] (ri.view o).bounds, vars := (ri.view o).vars.set x d' })
              | .error e => ((if comp then c.compile h else h), .error e)
            | none => ((if comp then c.compile h else h), .ok { (ri.view o) with bounds := addBounds [x] (ri.view o).bounds })) := by
          unfold setupOne
          simp only [hx]
          cases hk' : c.kind with
          | allDiff ns => exact absurd hk' (hk ns)
          | const b => rfl
          | expr e => rfl
        rw [hcase] at hs
        cases hg : (ri.view o).vars.get? x with
        | none =>
          rw [hg] at hs
          simp only [Prod.mk.injEq, Except.ok.injEq] at hs
          rw [← hs.2]
          have hg' : ({ (ri.view o) with bounds := addBounds [x] (ri.view o).bounds } : Info).vars.get? x = none := hg
          simp only [hg']
          rfl
        | some d =>
          rw [hg] at hs
          simp only at hs
          cases hf : filterDomain (if comp then c.compile h else h) c x d with
          | error e => rw [hf] at hs; simp at hs
          | ok d' =>
            rw [hf] at hs
            simp only [Prod.mk.injEq, Except.ok.injEq] at hs
            rw [← hs.2]
            simp only [Dict.get?_set, if_true]
            rw [Dict.map_set ri.vars (fun v => (v.obj o).values), ← hview]
            rfl
      have same : info.vars = (ri.view o).vars → info.vars = ri.vars.map (fun p => (p.1, (p.2.obj o).values)) := fun h => h
      unfold setupOne at hs
      cases hk : c.kind with
      | allDiff ns =>
        simp only [hk, Prod.mk.injEq, Except.ok.injEq] at hs
        simp only
        rw [← hs.2, hview]
      | const b =>
        cases hx : c.vars with
        | nil =>
          simp only [hk, hx, Prod.mk.injEq, Except.ok.injEq] at hs
          simp only
          rw [← hs.2, hview]
        | cons x xs =>
          cases xs with
          | nil => exact plain x hx (by rw [hk]; nofun)
          | cons y ys =>
            simp only [hk, hx, Prod.mk.injEq, Except.ok.injEq] at hs
            simp only
            rw [← hs.2, hview]
      | expr e =>
        cases hx : c.vars with
        | nil =>
          simp only [hk, hx, Prod.mk.injEq, Except.ok.injEq] at hs
          simp only
          rw [← hs.2, hview]
        | cons x xs =>
          cases xs with
          | nil => exact plain x hx (by rw [hk]; nofun)
          | cons y ys =>
            simp only [hk, hx, Prod.mk.injEq, Except.ok.injEq] at hs
            simp only
            rw [← hs.2, hview]

theorem rsetupLoop_view (o : Objs) (comp : Bool) (cs : List Constraint) (h : Heap) (ri : RInfo) :
    ((rsetupLoop o comp cs h ri).1, (rsetupLoop o comp cs h ri).2.map (RInfo.view o)) = setupLoop comp cs h (ri.view o) := by
  induction cs generalizing h ri with
  | nil => rfl
  | cons c cs ih =>
    rw [rsetupLoop, setupLoop, ← rsetupOne_view]
    cases hr : rsetupOne o comp c h ri with
    | mk h' r =>
      cases r with
      | error e => rfl
      | ok ri' => exact ih h' ri'

theorem rsetup_view (comp : Bool) (w : RWorld) (adds : List Constraint) (hs : (RInfo.init w).sized w.objs = true) :
    ((rsetup comp w adds).1, (rsetup comp w adds).2.map (RInfo.view w.objs)) = setup comp w.live adds w.world.heap := by
  unfold rsetup setup
  have hl := rsetupLoop_view w.objs comp (w.world.model.constraints ++ adds) w.world.heap (.init w)
  rw [init_view] at hl
  have hc : w.live.constraints = w.world.model.constraints := rfl
  rw [hc, ← hl, hs]
  simp only [Bool.not_true, Bool.false_eq_true, if_false]
  cases hr : rsetupLoop w.objs comp (w.world.model.constraints ++ adds) w.world.heap (.init w) with
  | mk h' r =>
    cases r with
    | error e => rfl
    | ok ri =>
      have hg : (ri.view w.objs).groups = ri.rest.groups := rfl
      simp only [Except.map, hg]
      cases checkGroups (ri.view w.objs).vars ri.rest.groups <;> rfl

/-- Up to the loop nothing is different from the model with the present values. -/
theorem rstart_view (a : SolveArgs) (w : RWorld) (hs : (RInfo.init w).sized w.objs = true) :
    ((rstart a w).1, (rstart a w).2.1.view w.objs, (rstart a w).2.2) = startSolve a w.live w.world.heap := by
  unfold rstart startSolve
  have hv : w.live.solvable = w.world.model.solvable := rfl
  rw [hv, ← rsetup_view a.solver.compile w a.adds hs]
  split
  · rw [init_view]
  · cases hr : rsetup a.solver.compile w a.adds with
    | mk h' r =>
      cases r with
      | error e => simp only [Except.map, init_view]
      | ok ri =>
        simp only [Except.map]
        cases orderVars a.solver.policy a.shuffle w.live (ri.view w.objs) <;> rfl

/-- Two systems that run alike. -/
theorem sysRun_sim {S T : Type} (R : S → T → Prop) (cfg : RunCfg) {cand : S → Name → Subst → Res (List Int)} {cand' : T → Name → Subst → Res (List Int)}
    {act : S → Subst → Res S} {act' : T → Subst → Res T} (hc : ∀ s t, R s t → cand s = cand' t)
    (ha : ∀ s t σ, R s t → (∃ e, act s σ = .error e ∧ act' t σ = .error e) ∨ ∃ s' t', act s σ = .ok s' ∧ act' t σ = .ok t' ∧ R s' t')
    (n : Nat) (g : Gen) (s : S) (t : T) (h : R s t) :
    (sysRun cfg cand act n g s).1 = (sysRun cfg cand' act' n g t).1 ∧ (sysRun cfg cand act n g s).2.1 = (sysRun cfg cand' act' n g t).2.1 ∧
      R (sysRun cfg cand act n g s).2.2 (sysRun cfg cand' act' n g t).2.2 := by
  induction n generalizing g s t with
  | zero => exact ⟨rfl, rfl, h⟩
  | succ n ih =>
    rw [sysRun, sysRun]
    have hstep : (sysStep cfg cand act g s).1 = (sysStep cfg cand' act' g t).1 ∧ R (sysStep cfg cand act g s).2 (sysStep cfg cand' act' g t).2 := by
      unfold sysStep
      cases g.phase with
      | running => exact ⟨by rw [hc s t h], h⟩
      | suspended σ =>
        rcases ha s t σ h with ⟨e, h1, h2⟩ | ⟨s', t', h1, h2, h3⟩
        · simp only [h1, h2]; exact ⟨trivial, h⟩
        · simp only [h1, h2]; exact ⟨trivial, h3⟩
      | finished => exact ⟨rfl, h⟩
      | raised e => exact ⟨rfl, h⟩
    have := ih (sysStep cfg cand act g s).1 _ _ hstep.2
    simp only
    rw [← hstep.1]
    exact ⟨by rw [this.1], this.2.1, this.2.2⟩

/-! ## Which domains are objects of the program when the search starts -/

/-- A tuple made from the constraints on this variable alone. -/
def Filtered (cs : List Constraint) (x : Name) : Prop := ∃ c ∈ cs, c.vars = [x] ∧ ∀ ns, c.kind ≠ .allDiff ns

theorem rsetupOne_vars {o : Objs} {comp : Bool} {c : Constraint} {h h' : Heap} {ri ri' : RInfo} (hr : rsetupOne o comp c h ri = (h', .ok ri')) (x : Name) :
    ri'.vars.get? x = ri.vars.get? x ∨ ∃ d, ri'.vars.get? x = some (.tuple d) := by
  unfold rsetupOne at hr
  cases hs : setupOne comp c h (ri.view o) with
  | mk h1 r =>
    rw [hs] at hr
    cases r with
    | error e => simp at hr
    | ok info =>
      simp only [Prod.mk.injEq, Except.ok.injEq] at hr
      rw [← hr.2]
      simp only
      unfold retuple
      split
      · exact .inl rfl
      · split
        · split
          · rw [Dict.get?_set]
            split
            · exact .inr ⟨_, rfl⟩
            · exact .inl rfl
          · exact .inl rfl
        · exact .inl rfl

theorem rsetupOne_filtered {o : Objs} {comp : Bool} {c : Constraint} {h h' : Heap} {ri ri' : RInfo} (hr : rsetupOne o comp c h ri = (h', .ok ri')) {x : Name}
    (hc : c.vars = [x]) (hk : ∀ ns, c.kind ≠ .allDiff ns) (hx : (ri.vars.get? x).isSome) : ∃ d, ri'.vars.get? x = some (.tuple d) := by
  have hv := rsetupOne_view o comp c h ri
  rw [hr] at hv
  simp only [Except.map] at hv
  have hhas : ((ri'.view o).vars.get? x).isSome := by
    have h1 : ((ri'.view o).vars.get? x) = (ri'.vars.get? x).map (fun v => (v.obj o).values) :=
      Dict.get?_map ri'.vars (fun _ v => (v.obj o).values) x
    rcases rsetupOne_vars hr x with h2 | ⟨d, h2⟩
    · rw [h1, h2]; simpa using hx
    · rw [h1, h2]; rfl
  unfold rsetupOne at hr
  rw [← hv] at hr
  simp only [Prod.mk.injEq, Except.ok.injEq, true_and] at hr
  obtain ⟨d, hd⟩ := Option.isSome_iff_exists.1 hhas
  refine ⟨d, ?_⟩
  rw [← hr]
  simp only
  unfold retuple
  cases hk' : c.kind with
  | allDiff ns => exact absurd hk' (hk ns)
  | const b => simp only [hc, hd, Dict.get?_set, if_true]
  | expr e => simp only [hc, hd, Dict.get?_set, if_true]

theorem rsetupLoop_vars {o : Objs} {comp : Bool} (cs : List Constraint) {h h' : Heap} {ri ri' : RInfo} (hr : rsetupLoop o comp cs h ri = (h', .ok ri')) (x : Name) :
    (ri'.vars.get? x = ri.vars.get? x ∨ ∃ d, ri'.vars.get? x = some (.tuple d)) ∧
      (Filtered cs x → (ri.vars.get? x).isSome → ∃ d, ri'.vars.get? x = some (.tuple d)) := by
  induction cs generalizing h ri with
  | nil =>
    rw [rsetupLoop] at hr
    simp only [Prod.mk.injEq, Except.ok.injEq] at hr
    rw [← hr.2]
    exact ⟨.inl rfl, fun ⟨c, hc, _⟩ => absurd hc (by simp)⟩
  | cons c cs ih =>
    rw [rsetupLoop] at hr
    cases h1 : rsetupOne o comp c h ri with
    | mk h2 r =>
      rw [h1] at hr
      cases r with
      | error e => simp at hr
      | ok ri2 =>
        simp only at hr
        have hi := ih hr
        have hv := rsetupOne_vars h1 x
        have htup : (∃ d, ri2.vars.get? x = some (.tuple d)) → ∃ d, ri'.vars.get? x = some (.tuple d) := by
          rintro ⟨d, hd⟩
          rcases hi.1 with h3 | h3
          · exact ⟨d, by rw [h3, hd]⟩
          · exact h3
        refine ⟨?_, ?_⟩
        · rcases hv with hv | hv
          · rcases hi.1 with h3 | h3
            · exact .inl (by rw [h3, hv])
            · exact .inr h3
          · exact .inr (htup hv)
        · rintro ⟨c', hc', hvars, hkind⟩ hx
          rcases List.mem_cons.1 hc' with rfl | hc'
          · exact htup (rsetupOne_filtered h1 hvars hkind hx)
          · refine hi.2 ⟨c', hc', hvars, hkind⟩ ?_
            rcases hv with hv | ⟨d, hv⟩
            · rw [hv]; exact hx
            · rw [hv]; rfl

theorem rsetupLoop_keys {o : Objs} {comp : Bool} (cs : List Constraint) {h h' : Heap} {ri ri' : RInfo} (hr : rsetupLoop o comp cs h ri = (h', .ok ri')) (x : Name) :
    (ri'.vars.get? x).isSome → (ri.vars.get? x).isSome ∨ ∃ d, ri'.vars.get? x = some (.tuple d) := by
  intro hx
  rcases (rsetupLoop_vars cs hr x).1 with h1 | h1
  · exact .inl (by rw [← h1]; exact hx)
  · exact .inr h1

theorem rsetup_vars {comp : Bool} {w : RWorld} {adds : List Constraint} {h' : Heap} {ri : RInfo} (hr : rsetup comp w adds = (h', .ok ri)) (x : Name) :
    (ri.vars.get? x = (RInfo.init w).vars.get? x ∨ ∃ d, ri.vars.get? x = some (.tuple d)) ∧
      (Filtered (w.world.model.constraints ++ adds) x → ((RInfo.init w).vars.get? x).isSome → ∃ d, ri.vars.get? x = some (.tuple d)) := by
  unfold rsetup at hr
  split at hr
  · simp at hr
  · cases h1 : rsetupLoop w.objs comp (w.world.model.constraints ++ adds) w.world.heap (.init w) with
    | mk h2 r =>
      rw [h1] at hr
      cases r with
      | error e => simp at hr
      | ok ri2 =>
        simp only at hr
        cases hg : checkGroups (ri2.view w.objs).vars ri2.rest.groups with
        | error e => rw [hg] at hr; simp at hr
        | ok u =>
          rw [hg] at hr
          simp only [Prod.mk.injEq, Except.ok.injEq] at hr
          rw [← hr.2]
          exact rsetupLoop_vars _ h1 x

end Satisfy
