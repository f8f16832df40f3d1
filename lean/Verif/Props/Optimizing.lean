import Verif.Props.Session
import Verif.Props.OptimizeRaise
/-!
# C65: an optimisation in progress next to other iterations
-/

namespace Satisfy.Props
open Satisfy

/-! ## Tightening the bounds before handing on a solution, or at the next step -/

/-- What is handed out, the generator, the objects: on the left if `optimize` sets the bounds when it is resumed, on the right if before it hands on a
solution. -/
inductive Follows (ks : List ObjCon) : List Subst × Gen × Heap → List Subst × Gen × Heap → Prop
  | same {o : List Subst} {g : Gen} {h : Heap} : (∀ σ, g.phase ≠ .suspended σ) → Follows ks (o, g, h) (o, g, h)
  | ahead {o : List Subst} {g : Gen} {h h' : Heap} {σ : Subst} : g.phase = .suspended σ → onSolution ks h σ = .ok h' → Follows ks (o, g, h) (o, g, h')
  | fails {o : List Subst} {g : Gen} {h : Heap} {σ : Subst} {e : Err} : g.phase = .suspended σ → onSolution ks h σ = .error e →
      Follows ks (o ++ [σ], g, h) (o, { g with phase := .raised e }, h)
  | failed {o : List Subst} {g : Gen} {h : Heap} {σ : Subst} {e : Err} : g.phase = .raised e → onSolution ks h σ = .error e →
      Follows ks (o ++ [σ], g, h) (o, g, h)

theorem resume_phase (cfg : RunCfg) (g : Gen) (σ : Subst) : (g.resume cfg).phase ≠ .suspended σ := by
  unfold Gen.resume Gen.withTimer
  simp only
  repeat' split
  all_goals simp

theorem follows_step {it : Iteration} {L R : List Subst × Gen × Heap} (h : Follows it.objs L R) (hit : it.gen = R.2.1) :
    let p := sysStep it.cfg (candidates it.info) (onSolution it.objs) L.2.1 L.2.2
    let q := it.advance R.2.2
    Follows it.objs (L.1 ++ (match L.2.1.phase with | .running => p.1.phase.output | _ => []), p.1, p.2) (R.1 ++ q.2.2, q.1.gen, q.2.1) := by
  intro p q
  cases h with
  | @same o g h hn =>
    simp only at hit
    simp only [p, q, Iteration.advance, sysStep, hit]
    cases hph : g.phase with
    | running =>
      simp only
      cases hg : (g.loop it.cfg (candidates it.info h)).phase with
      | suspended σ =>
        simp only [Phase.output]
        cases hs : onSolution it.objs h σ with
        | ok h' => exact .ahead hg hs
        | error e =>
          simp only [List.append_nil]
          exact .fails hg hs
      | running => simp only [Phase.output]; exact .same (by simp [hg])
      | finished => simp only [Phase.output]; exact .same (by simp [hg])
      | raised e => simp only [Phase.output]; exact .same (by simp [hg])
    | suspended σ => exact absurd hph (hn σ)
    | finished => simp only [List.append_nil]; rw [hit]; exact .same (by simp [hph])
    | raised e => simp only [List.append_nil]; rw [hit]; exact .same (by simp [hph])
  | @ahead o g h h' σ hph hs =>
    simp only at hit
    simp only [p, q, Iteration.advance, sysStep, hit, hph, hs, List.append_nil]
    exact .same (resume_phase _ _)
  | @fails o g h σ e hph hs =>
    simp only at hit
    simp only [p, q, Iteration.advance, sysStep, hph, hs, List.append_nil]
    have : it.gen.phase = .raised e := by rw [hit]
    rw [this]
    simp only [hit, List.append_nil]
    exact .failed (g := { g with phase := .raised e }) rfl hs
  | @failed o g h σ e hph hs =>
    simp only at hit
    simp only [p, q, Iteration.advance, sysStep, hit, hph, List.append_nil]
    exact .failed hph hs

/-- An optimisation that runs alone is a run of `optimize`. -/
theorem alone_optimize (calls : Nat → SolveCall) {s : Session} (ho : Orderly s) {i : Nat} (hi : s.its i = none) {w : World} {ks : List ObjCon}
    (hs : Started calls s i w ks) (n : Nat) :
    let a := (calls i).effective (s.solvers (calls i).solver) s.objs
    let u := (s.step calls (.next i)).run calls (steps i n)
    ∃ g, u.its i = some ⟨a.cfg, (startSolve (a.withObjectives ks) w.model w.heap).2.1, ks, g⟩ ∧
      Follows ks (solveRun (a.withObjectives ks) w.model (onSolution ks) n w.heap) (u.outs i, g, u.heap) := by
  intro a
  have hcfg : (a.withObjectives ks).cfg = a.cfg := rfl
  induction n with
  | zero =>
    show ∃ g, (s.step calls (.next i)).its i = _ ∧ Follows ks _ ((s.step calls (.next i)).outs i, g, (s.step calls (.next i)).heap)
    rw [step_start calls hi, hs.eq]
    refine ⟨_, by simp only [if_true]; rfl, ?_⟩
    simp only
    rw [ho.fresh i hi]
    rw [solveRun_eq]
    simp only [sysRun]
    refine .same (fun σ => ?_)
    unfold startSolve
    split
    · simp [Gen.idle]
    · cases setup (a.withObjectives ks).solver.compile w.model (a.withObjectives ks).adds w.heap with
      | mk H r =>
        cases r with
        | error e => simp [Gen.idle]
        | ok info =>
          simp only
          split
          · simp [Gen.idle]
          · unfold Gen.withTimer; split <;> simp [Gen.idle]
  | succ n ih =>
    intro u
    have hrun : u = ((s.step calls (.next i)).run calls (steps i n)).step calls (.next i) := by
      simp only [u]
      unfold Session.run steps
      rw [List.replicate_succ', List.foldl_append]; rfl
    obtain ⟨g, hg, hf⟩ := ih
    have hmore := sysRun_one_more a.cfg (candidates (startSolve (a.withObjectives ks) w.model w.heap).2.1) (onSolution ks) n
      (startSolve (a.withObjectives ks) w.model w.heap).2.2 (startSolve (a.withObjectives ks) w.model w.heap).1
    rw [← hcfg, ← solveRun_eq, ← solveRun_eq] at hmore
    have hstep := follows_step (it := ⟨a.cfg, (startSolve (a.withObjectives ks) w.model w.heap).2.1, ks, g⟩) hf rfl
    rw [hrun, step_go hg, hmore]
    refine ⟨((⟨a.cfg, (startSolve (a.withObjectives ks) w.model w.heap).2.1, ks, g⟩ : Iteration).advance
      ((s.step calls (.next i)).run calls (steps i n)).heap).1.gen, ?_, ?_⟩
    · simp only [if_true]
      rw [advance_fixed]
    · simp only [if_true]
      exact hstep

/-- Next to `L`, a run of `optimize` alone: `t` has handed out the same and stands at the same place; or an objective raises at a solution, which
`optimize` finds, but does not hand on. -/
def SameAs (i : Nat) (os : List Objective) (ρ : Store) (t : Session) (L : List Subst × Gen × World) : Prop :=
  ∃ it, t.its i = some it ∧ ((t.outs i = L.1 ∧ it.gen = L.2.1) ∨
    ∃ σ e, L.1 = t.outs i ++ [σ] ∧ it.gen.phase = .raised e ∧ ∃ o ∈ os, o.expr.eval ρ σ = .error e)

theorem alone_sameAs (calls : Nat → SolveCall) {s : Session} (ho : Orderly s) {i : Nat} (hi : s.its i = none) 
    (hobj : ∀ o ∈ (calls i).objectives, ∀ p ∈ o.expr.params, p < s.heap.nparams) (n : Nat) {t : Session}
    (h1 : t.its i = ((s.step calls (.next i)).run calls (steps i n)).its i) (h2 : t.outs i = ((s.step calls (.next i)).run calls (steps i n)).outs i) :
    SameAs i (calls i).objectives s.heap.params t
      (optimizeRun ((calls i).effective (s.solvers (calls i).solver) s.objs) (calls i).objectives n ⟨s.models (calls i).model, s.heap⟩) := by
  obtain ⟨w, ks, hs⟩ := started calls ho i
  obtain ⟨g, hg, hf⟩ := alone_optimize calls ho hi hs n
  have hst := opt_steady (a := (calls i).effective (s.solvers (calls i).solver) s.objs) hs.made n
  rw [optimizeRun_eq hs.make]
  refine ⟨_, h1.trans hg, ?_⟩
  rw [h2]
  simp only
  -- an objective that raises, raises with the parameter values of the start
  have herr : ∀ σ e, onSolution ks (solveRun (((calls i).effective (s.solvers (calls i).solver) s.objs).withObjectives ks) w.model (onSolution ks)
      n w.heap).2.2 σ = .error e → ∃ o ∈ (calls i).objectives, o.expr.eval s.heap.params σ = .error e := by
    intro σ e he
    obtain ⟨pre, k, post, H, hsplit, hpre, hev⟩ := onSolution_error he
    have hk : k ∈ ks := by rw [hsplit]; simp
    have hmem : k.obj ∈ (calls i).objectives := by
      have : k.obj ∈ ks.map (·.obj) := List.mem_map.2 ⟨k, hk, rfl⟩
      rw [hs.made.objs] at this; exact this
    refine ⟨k.obj, hmem, ?_⟩
    rw [← hev]
    refine eval_params (fun p hp => ?_) σ
    have hlt := hobj _ hmem p hp
    have h3 := (onSolution_steady (fun k' hk' => hs.made.fresh k' (by rw [hsplit]; simp [hk'])) hpre).1 p hlt
    have h4 := hst.1 p hlt
    rw [← h3, ← h4]
    obtain ⟨pre', _, _, hh⟩ := startSolve_heap (((calls i).effective (s.solvers (calls i).solver) s.objs).withObjectives ks) w.model w.heap
    rw [hh, compileAll_params]
    exact (hs.made.params p hlt).symm
  generalize solveRun (((calls i).effective (s.solvers (calls i).solver) s.objs).withObjectives ks) w.model (onSolution ks) n w.heap = R at hf herr
  generalize (s.step calls (.next i)).run calls (steps i n) = u at hf
  obtain ⟨oL, gL, hLp⟩ := R
  generalize u.outs i = oA at hf
  generalize u.heap = hA at hf
  cases hf with
  | same => exact .inl ⟨rfl, rfl⟩
  | ahead => exact .inl ⟨rfl, rfl⟩
  | fails hph hs => exact .inr ⟨_, _, rfl, rfl, herr _ _ hs⟩
  | failed hph hs => exact .inr ⟨_, _, rfl, hph, herr _ _ hs⟩

/-! ## C65 -/

/-- C65: an optimisation works on the model and the settings as they are at its first step; whatever the program does then, adding to this model and
others, changing settings, starting and advancing other iterations of `solve` and `optimize`, it hands out what `optimize` hands out alone. Not part
of it: assignments to parameters in its constraints and objectives, and to those it has made itself; and, if it does not compile, other iterations
that do. -/
theorem C65_isolated (calls : Nat → SolveCall) (before after : List Op) (i : Nat) :
    let s := Session.init.run calls before
    ∀ a, AsCalled (calls i) (s.solvers (calls i).solver) s.objs a →
    let m := s.models (calls i).model
    let os := (calls i).objectives
    let s' := s.step calls (.next i)
    s.its i = none →
    (∀ o ∈ os, ∀ p ∈ o.expr.params, p < s.heap.nparams) →
    (∀ j it, s.its j = some it → ∀ k ∈ it.objs, ∀ p ∈ k.own,
      (∀ c ∈ m.constraints ++ a.adds, p ∉ c.kind.paramIds) ∧ ∀ o ∈ os, p ∉ o.expr.params) →
    (∀ p v, .setParam p v ∈ after → (∀ c ∈ m.constraints ++ a.adds, p ∉ c.kind.paramIds) ∧
      (∀ o ∈ os, p ∉ o.expr.params) ∧ (p < s.heap.nparams ∨ s'.heap.nparams ≤ p)) →
    (a.solver.compile = true ∨
      (∀ j, (s.solvers (calls j).solver).compile = false) ∧ ∀ j t, .config j t ∈ after → t.compile = false) →
    SameAs i os s.heap.params (s.run calls (.next i :: after)) (optimizeRun a os (after.countP (Op.steps i)) ⟨m, s.heap⟩) := by
  intro s a hcall m os s' hi hobj hown hpar hcomp
  obtain rfl := (asCalled_iff _ _ _ a).1 hcall
  obtain ⟨h1, h2⟩ := run_isolated calls before after i hi hobj hown hpar hcomp
  exact alone_sameAs calls (orderly_run calls before orderly_init) hi hobj _ h1 h2

/-- C65, assignments: an optimisation that compiles its constraints does not see assignments to their parameters, as long as no other iteration is
started. Those to parameters of the objectives, and to its own, it does. -/
theorem C65_assigned (calls : Nat → SolveCall) (before after : List Op) (i : Nat) :
    let s := Session.init.run calls before
    ∀ a, AsCalled (calls i) (s.solvers (calls i).solver) s.objs a →
    let m := s.models (calls i).model
    let os := (calls i).objectives
    let s' := s.step calls (.next i)
    s.its i = none → a.solver.compile = true →
    (∀ o ∈ os, ∀ p ∈ o.expr.params, p < s.heap.nparams) →
    (∀ j it, s.its j = some it → ∀ k ∈ it.objs, ∀ p ∈ k.own, ∀ o ∈ os, p ∉ o.expr.params) →
    (∀ p v, .setParam p v ∈ after → (∀ o ∈ os, p ∉ o.expr.params) ∧ (p < s.heap.nparams ∨ s'.heap.nparams ≤ p)) →
    (∀ j, .next j ∈ after → j = i ∨ s.its j ≠ none) →
    SameAs i os s.heap.params (s.run calls (.next i :: after)) (optimizeRun a os (after.countP (Op.steps i)) ⟨m, s.heap⟩) := by
  intro s a hcall m os s' hi hcomp hobj hown hpar hst
  obtain rfl := (asCalled_iff _ _ _ a).1 hcall
  obtain ⟨h1, h2⟩ := run_kept calls before after i hi hcomp hobj hown hpar hst
  exact alone_sameAs calls (orderly_run calls before orderly_init) hi hobj _ h1 h2

/-- What a program builds meets the assumptions about `optimize`. -/
theorem session_optOk (calls : Nat → SolveCall) (before : List Op) (i : Nat) (hs : ∀ l, ((calls i).shuffle l).Perm l) :
    let s := Session.init.run calls before
    (∀ o ∈ (calls i).objectives, ∀ p ∈ o.expr.params, p < s.heap.nparams) →
    OptOk ((calls i).effective (s.solvers (calls i).solver) s.objs) (calls i).objectives ⟨s.models (calls i).model, s.heap⟩ := by
  intro s hobj
  have ho : Orderly s := orderly_run calls before orderly_init
  refine ⟨session_ok calls before i hs, ho.names _, fun c hc => ?_, hobj⟩
  have hk := effective_known ho i hc
  refine ⟨by rw [ho.ncons]; exact hk.lt, fun e he p hp => ho.params c.kind hk.mem p ?_⟩
  rw [he]; exact hp

/-- C65 spelled out: under the conditions of `C65_isolated`, at any time the optimisation has handed out solutions of the model as it was at the first
step (`IsSolution`), none twice; if it has ended and was not interrupted, and there is a solution at all, then it has handed out one. -/
theorem C65_solutions (calls : Nat → SolveCall) (before after : List Op) (i : Nat) (hs : ∀ l, ((calls i).shuffle l).Perm l) :
    let s := Session.init.run calls before
    ∀ a, AsCalled (calls i) (s.solvers (calls i).solver) s.objs a →
    let m := s.models (calls i).model
    let os := (calls i).objectives
    let s' := s.step calls (.next i)
    let t := s.run calls (.next i :: after)
    s.its i = none →
    (∀ o ∈ os, ∀ p ∈ o.expr.params, p < s.heap.nparams) →
    (∀ j it, s.its j = some it → ∀ k ∈ it.objs, ∀ p ∈ k.own,
      (∀ c ∈ m.constraints ++ a.adds, p ∉ c.kind.paramIds) ∧ ∀ o ∈ os, p ∉ o.expr.params) →
    (∀ p v, .setParam p v ∈ after → (∀ c ∈ m.constraints ++ a.adds, p ∉ c.kind.paramIds) ∧
      (∀ o ∈ os, p ∉ o.expr.params) ∧ (p < s.heap.nparams ∨ s'.heap.nparams ≤ p)) →
    (a.solver.compile = true ∨
      (∀ j, (s.solvers (calls j).solver).compile = false) ∧ ∀ j t, .config j t ∈ after → t.compile = false) →
    (∀ c ∈ m.constraints ++ a.adds, Over m c) →
    (∀ τ ∈ t.outs i, IsSolution m (m.constraints ++ a.adds) s'.heap τ) ∧
    (t.outs i).Pairwise (fun σ τ => ¬ SameDict σ τ) ∧
    (m.solvable = true → (∃ x, (m.domain? x).isSome) → (a.solver.compile = true → ∀ o ∈ os, o.Safe s.heap.params) →
      (∃ it, t.its i = some it ∧ it.gen.phase = .finished ∧ it.gen.interrupt = none) →
      ∀ τ, IsSolution m (m.constraints ++ a.adds) s'.heap τ → (∀ o ∈ os, ∃ v, o.expr.eval s.heap.params τ = .ok v) → t.outs i ≠ []) := by
  intro s a hcall m os s' t hi hobj hown hpar hcomp hover
  have hcall0 := hcall
  obtain rfl := (asCalled_iff _ _ _ a).1 hcall
  let a := (calls i).effective (s.solvers (calls i).solver) s.objs
  have ho : Orderly s := orderly_run calls before orderly_init
  have hok := session_optOk calls before i hs hobj
  obtain ⟨it, hit, hal⟩ := C65_isolated calls before after i _ hcall0 hi hobj hown hpar hcomp
  obtain ⟨w, ks, hst⟩ := started calls ho i
  let n := after.countP (Op.steps i)
  have hheap : s'.heap = (startSolve (a.withObjectives ks) w.model w.heap).1 := by
    show (s.step calls (.next i)).heap = _
    rw [step_start calls hi, hst.eq]
  have hL : optimizeRun a os n ⟨m, s.heap⟩ = _ := optimizeRun_eq hst.make n
  have hsteady : Steady s.heap s'.heap (optimizeRun a os n ⟨m, s.heap⟩).2.2.heap := by
    rw [hL, hheap]
    exact opt_steady hst.made n
  have hsol : ∀ τ, IsSolution m (m.constraints ++ a.adds) (optimizeRun a os n ⟨m, s.heap⟩).2.2.heap τ ↔ IsSolution m (m.constraints ++ a.adds) s'.heap τ := by
    intro τ
    have hev : ∀ c ∈ m.constraints ++ a.adds, Holds (optimizeRun a os n ⟨m, s.heap⟩).2.2.heap c τ ↔ Holds s'.heap c τ := by
      intro c hc
      unfold Holds
      rw [steady_evaluate hsteady (hok.old c hc) τ]
    exact ⟨fun h => ⟨h.1, fun c hc => (hev c hc).1 (h.2 c hc)⟩, fun h => ⟨h.1, fun c hc => (hev c hc).2 (h.2 c hc)⟩⟩
  have hpre : t.outs i <+: (optimizeRun a os n ⟨m, s.heap⟩).1 := by
    rcases hal with ⟨h1, _⟩ | ⟨σ, e, h1, _⟩
    · rw [h1]; exact List.prefix_refl _
    · rw [h1]; exact List.prefix_append _ _
  refine ⟨fun τ hτ => ?_, ?_, ?_⟩
  · exact (hsol τ).1 (C28_sound hok hover n τ (hpre.subset hτ))
  · exact (C28_distinct hok n).sublist hpre.sublist
  · rintro hsv hvar hsafe ⟨it', hit', hf, hn⟩ τ hτ hval
    obtain rfl : it = it' := by rw [hit] at hit'; exact Option.some.inj hit'
    rcases hal with ⟨h1, h2⟩ | ⟨σ, e, _, h2, _⟩
    · rw [h1]
      rw [h2] at hf hn
      exact opt_complete hok hsv hvar hsafe n hf hn τ ((hsol τ).2 hτ) hval
    · rw [hf] at h2; cases h2

/-! ## A concrete program -/

/-- `x, y in (0, 1, 2)`, the constraint `x != y`. -/
def exOptProgram : List Op :=
  [.addInt 0 [0, 1, 2] (some "x"), .addInt 0 [0, 1, 2] (some "y"), .addCon 0 (.expr (.bin .ne (.var "x") (.var "y")))]

/-- Iteration 0 maximizes `x + 2 * y`, iteration 1 minimizes `x + y`, iteration 2 is a call of `solve`; iteration 3 raises at the first solution. -/
def exOptCalls : Nat → SolveCall
  | 0 => { solver := 0, model := 0, objectives := [⟨true, .bin .add (.var "x") (.bin .mul (.const 2) (.var "y"))⟩] }
  | 1 => { solver := 0, model := 0, objectives := [⟨false, .bin .add (.var "x") (.var "y")⟩] }
  | 3 => { solver := 0, model := 0, objectives := [⟨true, .bin .mod (.var "x") (.var "y")⟩] }
  | _ => { solver := 0, model := 0 }

-- alone
example : (Session.init.run exOptCalls (exOptProgram ++ steps 0 30)).outs 0 =
      [[("y", 0), ("x", 1)], [("y", 0), ("x", 2)], [("y", 1), ("x", 2)], [("y", 2), ("x", 1)]] ∧
    (Session.init.run exOptCalls (exOptProgram ++ steps 1 30)).outs 1 = [[("y", 0), ("x", 1)], [("y", 0), ("x", 2)], [("y", 1), ("x", 0)]] := by
  decide +kernel

-- in turn, with a call of `solve`
example : let s := Session.init.run exOptCalls (exOptProgram ++ (List.replicate 30 [.next 0, .next 1, .next 2]).flatten)
    s.outs 0 = [[("y", 0), ("x", 1)], [("y", 0), ("x", 2)], [("y", 1), ("x", 2)], [("y", 2), ("x", 1)]] ∧
    s.outs 1 = [[("y", 0), ("x", 1)], [("y", 0), ("x", 2)], [("y", 1), ("x", 0)]] ∧
    s.outs 2 = [[("y", 0), ("x", 1)], [("y", 0), ("x", 2)], [("y", 1), ("x", 0)], [("y", 1), ("x", 2)], [("y", 2), ("x", 0)], [("y", 2), ("x", 1)]] := by
  decide +kernel

-- the hypotheses of `C65_isolated` hold for it
example : let s := Session.init.run exOptCalls (exOptProgram ++ [.next 1, .next 2])
    s.its 0 = none ∧ (s.solvers 0).compile = true ∧ (s.models 0).constraints.map (·.kind.paramIds) = [[]] ∧
    ((exOptCalls 0).objectives.map (·.expr.params)) = [[]] ∧ (s.its 1).map (·.objs.map ObjCon.own) = some [[0, 1]] := by decide

-- the model is extended and the settings changed after the first solution
example : let s := Session.init.run exOptCalls (exOptProgram ++ steps 0 4 ++
      [.addCon 0 (.expr (.bin .lt (.var "x") (.const 1))), .config 0 { limit := some 1 }] ++ steps 1 30 ++ steps 0 30)
    s.outs 0 = [[("y", 0), ("x", 1)], [("y", 0), ("x", 2)], [("y", 1), ("x", 2)], [("y", 2), ("x", 1)]] ∧ s.outs 1 = [[("y", 1), ("x", 0)]] := by
  decide +kernel

-- the first solution is found, but not handed on: `x % y` raises
example : (Session.init.run exOptCalls (exOptProgram ++ steps 3 30)).outs 3 = [] ∧
    (optimizeRun { solver := {} } (exOptCalls 3).objectives 29
      ⟨(Session.init.run exOptCalls exOptProgram).models 0, (Session.init.run exOptCalls exOptProgram).heap⟩).1 = [[("y", 0), ("x", 1)]] := by
  decide +kernel

/-- The parameters that `optimize` makes are variables of the model, so a constraint may mention them (`model.get_variable('_p3')`); it then
depends on how far the optimisation has come. The condition on them in `C59_isolated` and `C65_isolated` cannot be left out. -/
theorem C65_own_parameters :
    let before := exOptProgram ++ [.config 0 { compile := false }] ++ steps 0 1 ++ [.addCon 0 (.expr (.bin .le (.bin .add (.var "x") (.var "y")) (.param 1 "_p3")))]
    (Session.init.run exOptCalls (before ++ steps 2 30)).outs 2 ≠ (Session.init.run exOptCalls (before ++ steps 2 1 ++ steps 0 30 ++ steps 2 29)).outs 2 := by
  decide +kernel

end Satisfy.Props
