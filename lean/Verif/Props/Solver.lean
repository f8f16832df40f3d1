import Verif.Lemmas.Build
import Verif.Lemmas.Raise
/-!
C14-C22: what `Solver.solve` produces.

`solveRun a m passive n h` is the state after `n` steps of iterating `solver.solve(model, …)`: what has been
handed out so far, the generator, the heap.  A consumer that only looks at the solutions is `passive`.
-/

namespace Satisfy.Props

/-- What the theorems assume about a call: `random.shuffle` permutes, names are distinct and domains have no
duplicates, a constraint object is one object, and compiled functions belong to their constraint. -/
structure SolveOk (a : SolveArgs) (m : Model) (h : Heap) : Prop where
  shuffle : ∀ l, (a.shuffle l).Perm l
  wf : m.WF
  ids : SameIds (m.constraints ++ a.adds)
  fns : ∀ c ∈ m.constraints ++ a.adds, FnOk h c

/-- The assumptions hold for every model built through the API (no constraint objects made by hand, no
additional constraints), solved any number of steps after being built. -/
theorem solveOk_of_history (a : SolveArgs) (hs : ∀ l, (a.shuffle l).Perm l) (ha : a.adds = []) (h : Heap) (cs : List Call)
    (hn : ∀ c ∈ cs, c.noObject) :
    SolveOk a (runCalls cs ⟨.empty, h⟩).model (runCalls cs ⟨.empty, h⟩).heap := by
  have := model_ids h cs hn
  refine ⟨hs, model_wf h cs, by rw [ha, List.append_nil]; exact this.same, ?_⟩
  rw [ha, List.append_nil]
  intro c hc e f _ hf
  rw [this.fns c hc] at hf; cases hf

/-! A running example: two variables, a sum constraint, all-different. -/

def exHeap : Heap := ⟨fun _ => 0, fun _ => none, 0, 2⟩

def exModel : Model where
  vars := [("x", ⟨some [1, 2, 3], none⟩), ("y", ⟨some [3, 2, 1], none⟩)]
  constraints := [⟨0, .expr (.bin .eq (.bin .add (.var "x") (.var "y")) (.const 4))⟩, ⟨1, .allDiff ["x", "y"]⟩]
  solvable := true

def exArgs : SolveArgs := { solver := {} }

theorem exOk : SolveOk exArgs exModel exHeap := by
  refine ⟨fun l => .refl _, ⟨by decide, ?_⟩, ?_, ?_⟩
  · intro x d hx
    simp only [Model.domain?, exModel, Dict.get?] at hx
    split at hx
    · simp at hx; subst hx; decide
    · split at hx
      · simp at hx; subst hx; decide
      · simp at hx
  · intro c hc c' hc' hid
    simp [exModel, exArgs] at hc hc'
    rcases hc with rfl | rfl <;> rcases hc' with rfl | rfl <;> simp_all
  · intro c _ e f _ hf; simp [exHeap] at hf

theorem exOver : ∀ c ∈ exModel.constraints ++ exArgs.adds, Over exModel c := by
  intro c hc
  simp [exModel, exArgs] at hc
  rcases hc with rfl | rfl <;> exact ⟨by decide, by decide⟩

theorem exRun : (solveRun exArgs exModel passive 12 exHeap).1 = [[("y", 3), ("x", 1)], [("y", 1), ("x", 3)]] := by decide

/-! ## C14 -/

/-- The heap in which the constraints are evaluated during a run. -/
theorem run_heap (a : SolveArgs) (m : Model) (n : Nat) (h : Heap) : (solveRun a m passive n h).2.2 = (startSolve a m h).1 := by
  rw [solveRun_eq]; exact sysRun_passive_state _ _ _ _ _

theorem run_sound {a : SolveArgs} {m : Model} {h : Heap} (hok : SolveOk a m h) (n : Nat) :
    ∀ τ ∈ (solveRun a m passive n h).1,
      Assignment m τ ∧ ∀ c ∈ m.constraints ++ a.adds, Over m c → Holds (solveRun a m passive n h).2.2 c τ := by
  rw [run_heap]
  intro τ hτ
  cases startCase (a := a) m h hok.shuffle with
  | idle h1 _ => rw [solveRun_idle (ph := .finished) trivial h1] at hτ; simp at hτ
  | fail e h1 _ _ => rw [solveRun_idle (ph := .raised e) trivial h1] at hτ; simp at hτ
  | go H info hsol hset hst hne hp =>
    obtain ⟨hH, hinv, _⟩ := setup_spec hok.ids hset
    have hnd := hp.nodup_iff.2 (pureVars_nodup hok.wf.names)
    rw [solveRun_eq, hst] at hτ
    have hpre := (run_first a.cfg (candidates info) passive _ hne hnd (a.clock 0) H).2 n
    have hτ := hpre.subset hτ
    have hpath := (dfs_sound (Inv := fun s => s = H) (P := Accepts info H (fun _ => True)) (act := passive)
      (cand := candidates info) (by rintro s σ s' rfl hs; simp [passive] at hs; exact hs.symm)
      (by rintro s x σ vs rfl hvs; exact accepts_of_candidates (fun _ _ _ _ _ => rfl) hvs) _ [] H rfl).1 τ hτ
    rw [← hH] at hinv
    obtain ⟨h1, h2⟩ := path_sound hok.wf.names hinv hp hpath
    rw [hst]
    refine ⟨h1, fun c hc ho => h2 c hc ho ?_ (.inr (.inr trivial))⟩
    rw [hH]; exact compileAll_fnOk _ hok.ids hok.fns c hc

/-- C14: at every point of the iteration, everything handed out binds exactly the variables, to domain values,
and makes every constraint true (evaluated now). -/
theorem C14_sound {a : SolveArgs} {m : Model} {h : Heap} (hok : SolveOk a m h)
    (hover : ∀ c ∈ m.constraints ++ a.adds, Over m c) (n : Nat) :
    ∀ τ ∈ (solveRun a m passive n h).1,
      IsSolution m (m.constraints ++ a.adds) (solveRun a m passive n h).2.2 τ := by
  intro τ hτ
  obtain ⟨h1, h2⟩ := run_sound hok n τ hτ
  exact ⟨h1, fun c hc => h2 c hc (hover c hc)⟩

example : ∀ τ ∈ (solveRun exArgs exModel passive 12 exHeap).1,
    IsSolution exModel exModel.constraints (solveRun exArgs exModel passive 12 exHeap).2.2 τ := by
  simpa [exArgs] using C14_sound exOk exOver 12

/-- How a constraint is evaluated agrees with its meaning: it is interpreted, or compiled from a safe
expression. -/
def Plain (comp : Bool) (h : Heap) (c : Constraint) : Prop :=
  ∀ e, c.kind = .expr e → (comp = false ∧ h.fns c.id = none) ∨ (comp = true ∧ e.Safe h.params)

theorem holds_of_meaning {comp : Bool} {h : Heap} {cs : List Constraint} (hs : SameIds cs) {c : Constraint} (hc : c ∈ cs)
    (hp : Plain comp h c) {σ : Subst} (hm : Meaning h.params c σ) : Holds (compileAll comp cs h) c σ := by
  cases hk : c.kind with
  | const b =>
    simp only [Meaning, hk] at hm
    exact ⟨1, by simp [Constraint.evaluate, hk, hm, ofBool], by decide⟩
  | allDiff ns =>
    have had : c.isAD = true := by simp [Constraint.isAD, hk]
    have hv : ∀ x, x ∈ c.vars ↔ x ∈ ns := by intro x; simp [Constraint.vars, CKind.vars, hk]
    rw [holds_allDiff had]
    simp only [hv]
    simpa [Meaning, hk] using hm
  | expr e =>
    simp only [Meaning, hk] at hm
    obtain ⟨r, hr, h0⟩ := hm
    rcases hp e hk with ⟨rfl, hf⟩ | ⟨rfl, hsafe⟩
    · exact ⟨r, by simp [compileAll, Constraint.evaluate, hk, hf, hr], h0⟩
    · have hnow := compileAll_now (h := h) hs c hc e hk
      rw [compileAll_params] at hnow
      obtain ⟨_, _, hcall, _⟩ := safe_compile hsafe
      exact ⟨r, by simp [Constraint.evaluate, hk, hnow, hcall σ r hr], h0⟩

theorem meaning_of_holds {comp : Bool} {h : Heap} {cs : List Constraint} (hs : SameIds cs) {c : Constraint} (hc : c ∈ cs)
    (hp : Plain comp h c) {σ : Subst} (hm : Holds (compileAll comp cs h) c σ)
    (htot : comp = true → ∀ e, c.kind = .expr e → ∃ v, e.eval h.params σ = .ok v) : Meaning h.params c σ := by
  cases hk : c.kind with
  | const b =>
    obtain ⟨r, hr, h0⟩ := hm
    simp only [Constraint.evaluate, hk, Except.ok.injEq] at hr
    simp only [Meaning, hk]
    cases b
    · exact absurd hr.symm h0
    · rfl
  | allDiff ns =>
    have had : c.isAD = true := by simp [Constraint.isAD, hk]
    have hv : ∀ x, x ∈ c.vars ↔ x ∈ ns := by intro x; simp [Constraint.vars, CKind.vars, hk]
    rw [holds_allDiff had] at hm
    simp only [hv] at hm
    simpa [Meaning, hk] using hm
  | expr e =>
    simp only [Meaning, hk]
    obtain ⟨r, hr, h0⟩ := hm
    rcases hp e hk with ⟨rfl, hf⟩ | ⟨rfl, hsafe⟩
    · exact ⟨r, by simpa [compileAll, Constraint.evaluate, hk, hf] using hr, h0⟩
    · have hnow := compileAll_now (h := h) hs c hc e hk
      rw [compileAll_params] at hnow
      obtain ⟨_, _, hcall, _⟩ := safe_compile hsafe
      obtain ⟨v, hv⟩ := htot rfl e hk
      simp only [Constraint.evaluate, hk, hnow, hcall σ v hv, Except.ok.injEq] at hr
      subst hr
      exact ⟨v, hv, h0⟩

/-- C14 in terms of the meaning of the constraints. With compilation the expression must also have a value under
the assignment (a compiled `and`/`or` may skip a part that raises in `evaluate`). -/
theorem C14_meaning {a : SolveArgs} {m : Model} {h : Heap} (hok : SolveOk a m h)
    (hover : ∀ c ∈ m.constraints ++ a.adds, Over m c) (hplain : ∀ c ∈ m.constraints ++ a.adds, Plain a.solver.compile h c)
    (n : Nat) (τ : Subst) (hτ : τ ∈ (solveRun a m passive n h).1)
    (htot : a.solver.compile = true → ∀ c ∈ m.constraints ++ a.adds, ∀ e, c.kind = .expr e → ∃ v, e.eval h.params τ = .ok v) :
    Assignment m τ ∧ ∀ c ∈ m.constraints ++ a.adds, Meaning h.params c τ := by
  have hsol := C14_sound hok hover n τ hτ
  refine ⟨hsol.toAssignment, fun c hc => ?_⟩
  have hH := hsol.con c hc
  rw [run_heap] at hH
  cases startCase (a := a) m h hok.shuffle with
  | idle h1 _ => rw [solveRun_idle (ph := .finished) trivial h1] at hτ; simp at hτ
  | fail e h1 _ _ => rw [solveRun_idle (ph := .raised e) trivial h1] at hτ; simp at hτ
  | go H info _ hset hst _ _ =>
    rw [hst] at hH
    simp only at hH
    rw [setup_ok_heap hset] at hH
    exact meaning_of_holds hok.ids hc (hplain c hc) hH (fun hcomp e he => htot hcomp c hc e he)

/-- Why the constraint must mention a variable of the model: a constraint that mentions an unknown variable is
silently ignored. (`add_constraint` refuses such a constraint, `additional_constraints` does not.) -/
theorem C14_unknown_variable :
    let c : Constraint := ⟨7, .expr (.bin .and (.bin .lt (.var "x") (.const 0)) (.bin .lt (.var "z") (.const 0)))⟩
    (solveRun { exArgs with adds := [c] } exModel passive 12 exHeap).1 = [[("y", 3), ("x", 1)], [("y", 1), ("x", 3)]] := by
  decide

/-! ## C15 -/

/-- If the iteration has ended by itself (no interruption, no exception) and the model has a variable, every assignment has been handed
out under which those constraints hold that have variables, all of them variables of the model. -/
theorem run_complete {a : SolveArgs} {m : Model} {h : Heap} (hok : SolveOk a m h) (hsol : m.solvable = true)
    (hvar : ∃ x, (m.domain? x).isSome) (n : Nat)
    (hend : (solveRun a m passive n h).2.1.phase = .finished) (hint : (solveRun a m passive n h).2.1.interrupt = none)
    (τ : Subst) (hasg : Assignment m τ)
    (hτ : ∀ c ∈ m.constraints ++ a.adds, Over m c → Holds (solveRun a m passive n h).2.2 c τ) :
    ∃ τ' ∈ (solveRun a m passive n h).1, SameDict τ' τ := by
  rw [run_heap] at hτ
  cases startCase (a := a) m h hok.shuffle with
  | idle _ h2 =>
    rcases h2 with h2 | h2
    · rw [h2] at hsol; cases hsol
    · obtain ⟨x, hx⟩ := hvar
      rw [← pureVars_get? hok.wf.names] at hx
      obtain ⟨v, hv⟩ := Option.isSome_iff_exists.1 hx
      have := Dict.mem_keys_of_get? hv
      rw [h2] at this; simp at this
  | fail e h1 _ _ => rw [solveRun_idle (ph := .raised e) trivial h1] at hend; simp [Gen.idle] at hend
  | go H info _ hset hst hne hp =>
    obtain ⟨hH, hinv, had⟩ := setup_spec hok.ids hset
    have hnd := hp.nodup_iff.2 (pureVars_nodup hok.wf.names)
    rw [hst] at hτ
    rw [solveRun_eq, hst] at hend hint ⊢
    simp only at hend hint hτ ⊢
    obtain ⟨N, hN, he⟩ := (run_first a.cfg (candidates info) passive _ hne hnd (a.clock 0) H).1
    have hstab : sysRun a.cfg (candidates info) passive n (Gen.first (orderVars a.solver.policy a.shuffle m info) (a.clock 0)) H =
        sysRun a.cfg (candidates info) passive N (Gen.first (orderVars a.solver.policy a.shuffle m info) (a.clock 0)) H := by
      rcases Nat.le_total n N with hl | hl
      · exact (sysRun_stable a.cfg _ _ hl _ _ (by rw [hend]; trivial)).symm
      · exact sysRun_stable a.cfg _ _ hl _ _ hN
    rw [hstab] at hend hint ⊢
    cases he with
    | timeout _ _ h3 => rw [h3] at hint; cases hint
    | limit _ _ _ h3 => rw [h3] at hint; cases hint
    | natural h1 _ h3 h4 _ =>
      cases hr : (dfs (candidates info) passive (orderVars a.solver.policy a.shuffle m info) [] H).2 with
      | error e => rw [h4 e (by rw [hr]; rfl)] at hend; cases hend
      | ok s' =>
        rw [h1]
        rw [← hH] at hinv
        obtain ⟨τ', hpath, hsame⟩ := path_complete_over hok.wf.names hinv
          (fun c hc => by rw [hH]; exact compileAll_fnOk _ hok.ids hok.fns c hc) hp had hasg hτ
        exact ⟨τ', (dfs_complete (act := passive) (fun σ => rfl) _ [] s' hr).2 τ' hpath, hsame⟩

/-- C15: if the iteration has ended by itself (no interruption, no exception) and the model has a variable,
every solution has been handed out. -/
theorem C15_complete {a : SolveArgs} {m : Model} {h : Heap} (hok : SolveOk a m h) (hsol : m.solvable = true)
    (hvar : ∃ x, (m.domain? x).isSome) (n : Nat)
    (hend : (solveRun a m passive n h).2.1.phase = .finished) (hint : (solveRun a m passive n h).2.1.interrupt = none)
    (τ : Subst) (hτ : IsSolution m (m.constraints ++ a.adds) (solveRun a m passive n h).2.2 τ) :
    ∃ τ' ∈ (solveRun a m passive n h).1, SameDict τ' τ :=
  run_complete hok hsol hvar n hend hint τ hτ.toAssignment (fun c hc _ => hτ.con c hc)

/-- C15 in terms of the meaning of the constraints. -/
theorem C15_meaning {a : SolveArgs} {m : Model} {h : Heap} (hok : SolveOk a m h) (hsol : m.solvable = true)
    (hvar : ∃ x, (m.domain? x).isSome) (hplain : ∀ c ∈ m.constraints ++ a.adds, Plain a.solver.compile h c) (n : Nat)
    (hend : (solveRun a m passive n h).2.1.phase = .finished) (hint : (solveRun a m passive n h).2.1.interrupt = none)
    (τ : Subst) (hτ : Assignment m τ) (hτ' : ∀ c ∈ m.constraints ++ a.adds, Meaning h.params c τ) :
    ∃ τ' ∈ (solveRun a m passive n h).1, SameDict τ' τ := by
  refine C15_complete hok hsol hvar n hend hint τ ⟨hτ, fun c hc => ?_⟩
  rw [run_heap]
  cases startCase (a := a) m h hok.shuffle with
  | idle _ h2 =>
    rcases h2 with h2 | h2
    · rw [h2] at hsol; cases hsol
    · obtain ⟨x, hx⟩ := hvar
      rw [← pureVars_get? hok.wf.names] at hx
      obtain ⟨v, hv⟩ := Option.isSome_iff_exists.1 hx
      have := Dict.mem_keys_of_get? hv
      rw [h2] at this; simp at this
  | fail e h1 _ _ => rw [solveRun_idle (ph := .raised e) trivial h1] at hend; simp [Gen.idle] at hend
  | go H info _ hset hst _ _ =>
    rw [hst]
    simp only
    rw [setup_ok_heap hset]
    exact holds_of_meaning hok.ids hc (hplain c hc) (hτ' c hc)

example : ∃ τ' ∈ (solveRun exArgs exModel passive 12 exHeap).1, SameDict τ' [("y", 1), ("x", 3)] := by
  refine C15_meaning exOk rfl ⟨"x", rfl⟩ ?_ 12 (by rfl) (by rfl) _ ⟨by decide, ?_, ?_⟩ ?_
  · intro c hc e he
    simp [exModel, exArgs] at hc
    rcases hc with rfl | rfl
    · cases he; exact .inr ⟨rfl, by decide⟩
    · cases he
  · intro x
    simp only [Dict.keys, List.map_cons, List.map_nil, List.mem_cons, List.not_mem_nil, or_false, Model.domain?, exModel, Dict.get?]
    by_cases h1 : "x" = x
    · subst h1; simp
    · by_cases h2 : "y" = x
      · subst h2; simp
      · simp [h1, h2, Ne.symm h1, Ne.symm h2]
  · intro x v hv
    simp only [Dict.get?] at hv
    split at hv
    · rename_i hx; subst hx; simp at hv; subst hv; exact ⟨[3, 2, 1], rfl, by decide⟩
    · split at hv
      · rename_i hx; subst hx; simp at hv; subst hv; exact ⟨[1, 2, 3], rfl, by decide⟩
      · simp at hv
  · intro c hc
    simp [exModel, exArgs] at hc
    rcases hc with rfl | rfl
    · exact ⟨1, by decide, by decide⟩
    · exact ⟨by decide, by decide⟩

/-- The proviso "the model has a variable": a model without variables has the empty solution, but nothing is
handed out. -/
theorem C15_no_variables (a : SolveArgs) (hs : ∀ l, (a.shuffle l).Perm l) (m : Model) (h : Heap) (n : Nat) (hm : m.pureVars.keys = []) :
    (solveRun a m passive n h).1 = [] := by
  cases startCase (a := a) m h hs with
  | idle h1 _ => rw [solveRun_idle (ph := .finished) trivial h1]
  | fail e h1 _ _ => rw [solveRun_idle (ph := .raised e) trivial h1]
  | go H info _ _ _ hne hp => rw [hm] at hp; exact absurd hp.eq_nil hne

/-- A model marked unsolvable yields nothing; it was marked because one of its constraints is a variable-free one
that was false when added. -/
theorem C15_unsolvable (a : SolveArgs) (m : Model) (h : Heap) (n : Nat) (hm : m.solvable = false) :
    (solveRun a m passive n h).1 = [] := by
  have : (startSolve a m h).2.2 = Gen.idle .finished := by simp [startSolve, hm]
  rw [solveRun_idle (ph := .finished) trivial this]

/-! ## C16, C19: order and distinctness -/

theorem run_sorted {a : SolveArgs} {m : Model} {h : Heap} (hok : SolveOk a m h) (act : Heap → Subst → Res Heap) (n : Nat) :
    ∃ names, names.Perm m.pureVars.keys ∧ (a.solver.policy = .ordered → names = m.pureVars.keys) ∧
      (solveRun a m act n h).1.Pairwise (LexBefore (fun x => (m.domain? x).getD []) names) := by
  cases startCase (a := a) m h hok.shuffle with
  | idle h1 _ => rw [solveRun_idle (ph := .finished) trivial h1]; exact ⟨_, .refl _, fun _ => rfl, .nil⟩
  | fail e h1 _ _ => rw [solveRun_idle (ph := .raised e) trivial h1]; exact ⟨_, .refl _, fun _ => rfl, .nil⟩
  | go H info _ hset hst hne hp =>
    obtain ⟨hH, hinv, _⟩ := setup_spec hok.ids hset
    have hnd := hp.nodup_iff.2 (pureVars_nodup hok.wf.names)
    refine ⟨orderVars a.solver.policy a.shuffle m info, hp, ?_, ?_⟩
    · intro ho; simp only [ho, orderVars]; exact hinv.keys
    · rw [solveRun_eq, hst]
      have hpre := (run_first a.cfg (candidates info) act _ hne hnd (a.clock 0) H).2 n
      refine List.Pairwise.sublist hpre.sublist (dfs_sorted ?_ ?_ _ hnd [] H)
      · intro s x σ vs hvs
        obtain ⟨d, hd, hsub, _⟩ := candidates_ok hvs
        obtain ⟨d0, hd0, hsub0, _⟩ := hinv.dom x d hd
        rw [pureVars_get? hok.wf.names] at hd0
        rw [hd0]
        exact hsub.trans hsub0
      · intro x
        cases hd : m.domain? x with
        | none => simp
        | some d => exact hok.wf.doms x d hd

/-- C16: no two of the dicts handed out are equal. -/
theorem C16_distinct {a : SolveArgs} {m : Model} {h : Heap} (hok : SolveOk a m h) (n : Nat) :
    (solveRun a m passive n h).1.Pairwise (fun σ τ => ¬ SameDict σ τ) := by
  obtain ⟨names, _, _, hp⟩ := run_sorted hok passive n
  exact hp.imp lexBefore_ne

example : (solveRun exArgs exModel passive 12 exHeap).1.Pairwise (fun σ τ => ¬ SameDict σ τ) := C16_distinct exOk 12

/-- Without the check for duplicates of `add_int_variable` this would be false. -/
example : (solveRun exArgs ⟨[("x", ⟨some [1, 1], none⟩)], [], true⟩ passive 12 exHeap).1 = [[("x", 1)], [("x", 1)]] := by decide

/-- C19: with the ORDERED policy solutions come in lexicographic order of the declared variables, values
compared by their position in the declared domain. -/
theorem C19_lexicographic {a : SolveArgs} {m : Model} {h : Heap} (hok : SolveOk a m h) (hpol : a.solver.policy = .ordered) (n : Nat) :
    (solveRun a m passive n h).1.Pairwise (LexBefore (fun x => (m.domain? x).getD []) m.pureVars.keys) := by
  obtain ⟨names, _, h1, h2⟩ := run_sorted hok passive n
  rw [h1 hpol] at h2; exact h2

example : (solveRun { exArgs with solver := { policy := .ordered } } { exModel with constraints := [] } passive 26 exHeap).1 =
    [[("x", 1), ("y", 3)], [("x", 1), ("y", 2)], [("x", 1), ("y", 1)], [("x", 2), ("y", 3)], [("x", 2), ("y", 2)],
     [("x", 2), ("y", 1)], [("x", 3), ("y", 3)], [("x", 3), ("y", 2)], [("x", 3), ("y", 1)]] := by decide

/-! ## C17 -/

/-- C17: the iteration ends, whatever the consumer does, with or without limits. -/
theorem C17_terminates (a : SolveArgs) (hs : ∀ l, (a.shuffle l).Perm l) (m : Model) (hn : m.vars.keys.Nodup)
    (act : Heap → Subst → Res Heap) (h : Heap) :
    ∃ N, (solveRun a m act N h).2.1.phase.terminal ∧ ∀ n ≥ N, solveRun a m act n h = solveRun a m act N h := by
  have main : ∃ N, (solveRun a m act N h).2.1.phase.terminal := by
    cases startCase (a := a) m h hs with
    | idle h1 _ => exact ⟨0, by rw [solveRun_idle (ph := .finished) trivial h1]; trivial⟩
    | fail e h1 _ _ => exact ⟨0, by rw [solveRun_idle (ph := .raised e) trivial h1]; trivial⟩
    | go H info _ hset hst hne hp =>
      obtain ⟨N, hN, _⟩ := (run_first a.cfg (candidates info) act _ hne (hp.nodup_iff.2 (pureVars_nodup hn)) (a.clock 0) H).1
      exact ⟨N, by rw [solveRun_eq, hst]; exact hN⟩
  obtain ⟨N, hN⟩ := main
  exact ⟨N, hN, fun n hn => sysRun_stable _ _ _ hn _ _ hN⟩

/-- C17: an exception that ends the iteration is one that a constraint raised when evaluated at values of the domains, or comes from
an all-different constraint over no variables or over something that is not a variable of the model. It never comes from the stack
machine (`stack[-1]` of an empty entry) or the timer. -/
theorem C17_raises {a : SolveArgs} {m : Model} {h : Heap} (hok : SolveOk a m h) (n : Nat) (e : Err)
    (hr : (solveRun a m passive n h).2.1.phase = .raised e) :
    Cause m (compileAll a.solver.compile (m.constraints ++ a.adds) h) (m.constraints ++ a.adds) e := by
  have hn := hok.wf.names
  cases startCase (a := a) m h hok.shuffle with
  | idle h1 _ => rw [solveRun_idle (ph := .finished) trivial h1] at hr; simp [Gen.idle] at hr
  | fail e' h1 _ h3 =>
    rw [solveRun_idle (ph := .raised e') trivial h1] at hr
    simp [Gen.idle] at hr; subst hr; exact setup_error hn hok.ids h3
  | go H info _ hset hst hne hp =>
    have hnd := hp.nodup_iff.2 (pureVars_nodup hn)
    obtain ⟨hH, hinv, _⟩ := setup_spec hok.ids hset
    obtain ⟨N, hN, he⟩ := (run_first a.cfg (candidates info) passive _ hne hnd (a.clock 0) H).1
    rw [solveRun_eq, hst] at hr
    simp only at hr
    have hstab : sysRun a.cfg (candidates info) passive n (Gen.first (orderVars a.solver.policy a.shuffle m info) (a.clock 0)) H =
        sysRun a.cfg (candidates info) passive N (Gen.first (orderVars a.solver.policy a.shuffle m info) (a.clock 0)) H := by
      rcases Nat.le_total n N with hl | hl
      · exact (sysRun_stable a.cfg _ _ hl _ _ (by rw [hr]; trivial)).symm
      · exact sysRun_stable a.cfg _ _ hl _ _ hN
    rw [hstab] at hr
    cases he with
    | timeout _ h2 => rw [h2] at hr; cases hr
    | limit _ _ h2 => rw [h2] at hr; cases hr
    | natural h1 _ h3 h4 _ =>
      cases hd : (dfs (candidates info) passive (orderVars a.solver.policy a.shuffle m info) [] H).2 with
      | ok s => rw [(h3 s (by rw [hd]; rfl)).1] at hr; cases hr
      | error e' =>
        rw [h4 e' (by rw [hd]; rfl)] at hr
        cases hr
        have := (dfs_error (Inv := fun s => s = H) (Q := Within m) (names := orderVars a.solver.policy a.shuffle m info)
          (cand := candidates info) (act := passive) (by rintro s σ s' rfl _ h; simp [passive] at h; exact h.symm)
          (fun s x σ vs _ hq _ hc v hv => by
            obtain ⟨d, hd, hvs⟩ := candidates_dom hn hinv hc
            exact within_set hq hd (hvs v hv)) (e := e) _ (fun _ h => h) [] H (by intro x v hx; simp [Dict.get?] at hx) rfl).2 hd
        rcases this with ⟨s, x, σ, rfl, hq, hx, hc⟩ | ⟨s, σ, _, _, hc⟩
        · obtain ⟨c, hcc, τ, _, h1, h2, h3⟩ := candidates_error hn hinv (hp.mem_iff.1 hx) hq hc
          exact .con c τ hcc h1 h2 (by rw [← hH]; exact h3)
        · simp [passive] at hc

/-- C17: without limit and timeout, and if no constraint can raise on the domains, the iteration ends by itself. -/
theorem C17_finishes {a : SolveArgs} {m : Model} {h : Heap} (hok : SolveOk a m h) (hlim : a.solver.limit = none) (htmo : a.solver.timeout = none)
    (hc : ∀ e, ¬ Cause m (compileAll a.solver.compile (m.constraints ++ a.adds) h) (m.constraints ++ a.adds) e) :
    ∃ N, ∀ n ≥ N, (solveRun a m passive n h).2.1.phase = .finished ∧ (solveRun a m passive n h).2.1.interrupt = none ∧
      solveRun a m passive n h = solveRun a m passive N h := by
  obtain ⟨N, hN, hst⟩ := C17_terminates a hok.shuffle m hok.wf.names passive h
  refine ⟨N, fun n hn => ?_⟩
  rw [hst n hn]
  refine ⟨?_, ?_, rfl⟩
  · cases hp : (solveRun a m passive N h).2.1.phase with
    | finished => rfl
    | raised e => exact absurd (C17_raises hok N e hp) (hc e)
    | running => rw [hp] at hN; exact absurd hN (by simp [Phase.terminal])
    | suspended σ => rw [hp] at hN; exact absurd hN (by simp [Phase.terminal])
  · cases startCase (a := a) m h hok.shuffle with
    | idle h1 _ => rw [solveRun_idle (ph := .finished) trivial h1]; rfl
    | fail e' h1 _ _ => rw [solveRun_idle (ph := .raised e') trivial h1]; rfl
    | go H info _ hset hst hne hp =>
      have hnd := hp.nodup_iff.2 (pureVars_nodup hok.wf.names)
      obtain ⟨N', hN', he⟩ := (run_first a.cfg (candidates info) passive _ hne hnd (a.clock 0) H).1
      rw [solveRun_eq, hst] at hN ⊢
      simp only at hN ⊢
      have hstab : sysRun a.cfg (candidates info) passive N (Gen.first (orderVars a.solver.policy a.shuffle m info) (a.clock 0)) H =
          sysRun a.cfg (candidates info) passive N' (Gen.first (orderVars a.solver.policy a.shuffle m info) (a.clock 0)) H := by
        rcases Nat.le_total N N' with hl | hl
        · exact (sysRun_stable a.cfg _ _ hl _ _ hN).symm
        · exact sysRun_stable a.cfg _ _ hl _ _ hN'
      rw [hstab]
      cases he with
      | timeout _ _ _ h4 => simp [SolveArgs.cfg, htmo] at h4
      | limit _ _ _ _ h4 => simp [SolveArgs.cfg, hlim] at h4
      | natural _ h2 => exact h2

/-- A constraint that raises: `5 % x == 1` at `x = 0`. -/
def raisingModel : Model where
  vars := [("x", ⟨some [0, 1], none⟩)]
  constraints := [⟨0, .expr (.bin .eq (.bin .mod (.const 5) (.var "x")) (.const 1))⟩]
  solvable := true

example : (solveRun exArgs raisingModel passive 12 exHeap).2.1.phase = .raised .zeroDivision := by rfl

example : (solveRun exArgs exModel passive 12 exHeap).2.1.phase.terminal := by
  have : (solveRun exArgs exModel passive 12 exHeap).2.1.phase = .finished := by rfl
  rw [this]; trivial

/-! ## C18 -/

/-- C18: two complete iterations that differ in the policy (and shuffle, clock) hand out the same dicts up to
order. -/
theorem C18_policy {a a' : SolveArgs} {m : Model} {h : Heap} (hok : SolveOk a m h) (hs' : ∀ l, (a'.shuffle l).Perm l)
    (hadds : a'.adds = a.adds) (hcomp : a'.solver.compile = a.solver.compile)
    (hover : m.solvable = true → ∀ c ∈ m.constraints ++ a.adds, Over m c) (n n' : Nat)
    (hend : (solveRun a m passive n h).2.1.phase = .finished) (hint : (solveRun a m passive n h).2.1.interrupt = none)
    (hend' : (solveRun a' m passive n' h).2.1.phase = .finished) (hint' : (solveRun a' m passive n' h).2.1.interrupt = none) :
    ((solveRun a m passive n h).1.map Dict.get?).Perm ((solveRun a' m passive n' h).1.map Dict.get?) := by
  have hok' : SolveOk a' m h := ⟨hs', hok.wf, by rw [hadds]; exact hok.ids, by rw [hadds]; exact hok.fns⟩
  by_cases hsol : m.solvable = true
  · have hover := hover hsol
    have hnodup : ∀ l : List Subst, l.Pairwise (fun σ τ => ¬ SameDict σ τ) → (l.map Dict.get?).Nodup := by
      intro l hl
      rw [List.Nodup, List.pairwise_map]
      refine hl.imp ?_
      intro σ τ h1 h2
      exact h1 (fun x => by rw [h2])
    by_cases hvar : ∃ x, (m.domain? x).isSome
    · have hheap : (solveRun a m passive n h).2.2 = (solveRun a' m passive n' h).2.2 := by
        have key : ∀ (a : SolveArgs) (n : Nat), SolveOk a m h → (solveRun a m passive n h).2.1.phase = .finished →
            (solveRun a m passive n h).2.2 = compileAll a.solver.compile (m.constraints ++ a.adds) h := by
          intro a n hok hend
          rw [run_heap]
          cases startCase (a := a) m h hok.shuffle with
          | idle _ h2 =>
            rcases h2 with h2 | h2
            · rw [h2] at hsol; cases hsol
            · obtain ⟨x, hx⟩ := hvar
              rw [← pureVars_get? hok.wf.names] at hx
              obtain ⟨v, hv⟩ := Option.isSome_iff_exists.1 hx
              have := Dict.mem_keys_of_get? hv
              rw [h2] at this; simp at this
          | fail e h1 _ _ => rw [solveRun_idle (ph := .raised e) trivial h1] at hend; simp [Gen.idle] at hend
          | go H info _ hset hst _ _ => rw [hst]; exact setup_ok_heap hset
        rw [key a n hok hend, key a' n' hok' hend', hadds, hcomp]
      refine (List.perm_ext_iff_of_nodup (hnodup _ (C16_distinct hok n)) (hnodup _ (C16_distinct hok' n'))).2 ?_
      intro f
      simp only [List.mem_map]
      constructor
      · rintro ⟨σ, hσ, rfl⟩
        have hsσ := C14_sound hok hover n σ hσ
        rw [hheap, ← hadds] at hsσ
        obtain ⟨τ, hτ, hsame⟩ := C15_complete hok' hsol hvar n' hend' hint' σ hsσ
        exact ⟨τ, hτ, funext hsame⟩
      · rintro ⟨σ, hσ, rfl⟩
        have hsσ := C14_sound hok' (by rw [hadds]; exact hover) n' σ hσ
        rw [← hheap, hadds] at hsσ
        obtain ⟨τ, hτ, hsame⟩ := C15_complete hok hsol hvar n hend hint σ hsσ
        exact ⟨τ, hτ, funext hsame⟩
    · have hempty : m.pureVars.keys = [] := by
        by_contra hne
        obtain ⟨x, hx⟩ := List.exists_mem_of_ne_nil _ hne
        obtain ⟨v, hv⟩ := Dict.get?_isSome_of_mem_keys hx
        exact hvar ⟨x, by rw [← pureVars_get? hok.wf.names, hv]; rfl⟩
      rw [C15_no_variables a hok.shuffle m h n hempty, C15_no_variables a' hs' m h n' hempty]
  · have hsol : m.solvable = false := by simpa using hsol
    rw [C15_unsolvable a m h n hsol, C15_unsolvable a' m h n' hsol]

example : (solveRun { exArgs with solver := { policy := .reversed } } exModel passive 12 exHeap).1 =
    [[("y", 3), ("x", 1)], [("y", 1), ("x", 3)]] := by decide

end Satisfy.Props
