import Verif.Lemmas.Reuse
import Mathlib.Data.List.Induction
import Verif.Props.Solver
/-!
C23-C27: repeated solving, additional constraints, compilation, parameters, interleaved iterations.
-/

namespace Satisfy.Props

/-! ## Histories -/

/-- Things done between building a model and a call of `solve` that can influence it: assigning to a parameter, and
solving (taking `n` steps of the iteration and dropping it) with any solver, arguments and model. -/
inductive Event where
  | setParam (i : Nat) (v : Int)
  | solve (a : SolveArgs) (m : Model) (n : Nat)

def Event.run (h : Heap) : Event → Heap
  | .setParam i v => h.setParam i v
  | .solve a m n => (solveRun a m passive n h).2.2

/-- The parameter values after a history, by the assignments alone. -/
def assigned (ρ : Store) : List Event → Store
  | [] => ρ
  | .setParam i v :: es => assigned (fun j => if j = i then v else ρ j) es
  | .solve _ _ _ :: es => assigned ρ es

/-- C23: solving changes no parameter. (The model itself is not in the heap: `solve` has no way to change its
variables, domains and constraints; see DESIGN.md.) -/
theorem C23_params (a : SolveArgs) (m : Model) (n : Nat) (h : Heap) : (solveRun a m passive n h).2.2.params = h.params := by
  rw [run_heap]
  obtain ⟨pre, _, _, hh⟩ := startSolve_heap a m h
  rw [hh]; exact compileAll_params _ _ _

theorem events_params (es : List Event) (h : Heap) : (es.foldl Event.run h).params = assigned h.params es := by
  induction es generalizing h with
  | nil => rfl
  | cons e es ih =>
    cases e with
    | setParam i v => rw [List.foldl_cons, ih]; rfl
    | solve a m n => rw [List.foldl_cons, ih]; simp only [Event.run, assigned, C23_params]

/-- Nothing but solving without compilation happens. -/
def Interpreted (es : List Event) : Prop := ∀ a m n, Event.solve a m n ∈ es → a.solver.compile = false

theorem events_fns {es : List Event} (hi : Interpreted es) (h : Heap) : (es.foldl Event.run h).fns = h.fns := by
  induction es generalizing h with
  | nil => rfl
  | cons e es ih =>
    have hi' : Interpreted es := fun a m n he => hi a m n (by simp [he])
    cases e with
    | setParam i v => rw [List.foldl_cons, ih hi']; rfl
    | solve a m n =>
      rw [List.foldl_cons, ih hi']
      simp only [Event.run]
      rw [run_heap]
      obtain ⟨pre, _, _, hh⟩ := startSolve_heap a m h
      rw [hh, hi a m n (by simp)]; rfl

/-- C23: solving again, after any number of solves (of this or other models, broken off anywhere, with whatever
arguments), gives the same iteration step by step. -/
theorem C23_again {a : SolveArgs} {m : Model} (hn : m.vars.keys.Nodup) (hids : SameIds (m.constraints ++ a.adds)) (h : Heap)
    (es : List Event) (hes : ∀ e ∈ es, ∃ a' m' n', e = .solve a' m' n' ∧ a'.solver.compile = a.solver.compile) (n : Nat) :
    (solveRun a m passive n (es.foldl Event.run h)).1 = (solveRun a m passive n h).1 ∧
    (solveRun a m passive n (es.foldl Event.run h)).2.1 = (solveRun a m passive n h).2.1 := by
  have hp : (es.foldl Event.run h).params = h.params := by
    rw [events_params]
    clear hids
    induction es generalizing h with
    | nil => rfl
    | cons e es ih =>
      obtain ⟨a', m', n', rfl, _⟩ := hes e (by simp)
      exact ih h (fun e he => hes e (by simp [he]))
  cases hc : a.solver.compile with
  | true => exact (solveRun_compiled hn hc hids hp).2 n
  | false =>
    refine (solveRun_interpreted hn hc (fun c _ => ?_) hp).2 n
    rw [events_fns]
    intro a' m' n' he
    obtain ⟨a2, m2, n2, heq, h2⟩ := hes _ he
    cases heq
    rw [h2, hc]

example : (solveRun exArgs exModel passive 12 ([Event.solve exArgs exModel 12, .solve { exArgs with solver := { policy := .ordered } } exModel 3].foldl
    Event.run exHeap)).1 = [[("y", 3), ("x", 1)], [("y", 1), ("x", 3)]] :=
  (C23_again (by decide) exOk.ids exHeap _ (by
    intro e he; simp at he
    rcases he with rfl | rfl <;> exact ⟨_, _, _, rfl, rfl⟩) 12).1.trans (by decide)

/-! ## C24 -/

/-- C24 is false of the code: a constraint without variables, passed as an additional constraint, is not
enforced. -/
theorem C24_refuted : ∃ (c : Constraint), ∃ τ ∈ (solveRun { exArgs with adds := [c] } exModel passive 12 exHeap).1,
    ¬ Holds (solveRun { exArgs with adds := [c] } exModel passive 12 exHeap).2.2 c τ := by
  refine ⟨⟨7, .const false⟩, [("y", 3), ("x", 1)], ?_, ?_⟩
  · have : (solveRun { exArgs with adds := [⟨7, .const false⟩] } exModel passive 12 exHeap).1 = [[("y", 3), ("x", 1)], [("y", 1), ("x", 3)]] := by
      decide
    rw [this]; simp
  · rintro ⟨r, hr, h0⟩
    simp [Constraint.evaluate, ofBool] at hr
    exact h0 hr.symm

/-- The same with an expression over a parameter only: `additional_constraints=[p == 1]` where `p` is 0. -/
theorem C24_refuted_parameter :
    let c : Constraint := ⟨7, .expr (.bin .eq (.param 0 "p") (.const 1))⟩
    let a : SolveArgs := { exArgs with adds := [c] }
    (solveRun a exModel passive 12 exHeap).1 = [[("y", 3), ("x", 1)], [("y", 1), ("x", 3)]] ∧
    c.evaluate (solveRun a exModel passive 12 exHeap).2.2 [("y", 3), ("x", 1)] = .ok 0 := by decide

/-- C24 for additional constraints over variables of the model (at least one): enforced. Missing from the full
statement: constraints without variables, or with unknown variables (`C14_unknown_variable`). -/
theorem C24_partial {a : SolveArgs} {m : Model} {h : Heap} (hok : SolveOk a m h) (n : Nat) (τ : Subst)
    (hτ : τ ∈ (solveRun a m passive n h).1) (c : Constraint) (hc : c ∈ a.adds) (ho : Over m c) :
    Holds (solveRun a m passive n h).2.2 c τ :=
  (run_sound hok n τ hτ).2 c (List.mem_append_right _ hc) ho

/-- Exactly which constraints count: when the iteration has ended by itself, an assignment has been handed out if and only if it
satisfies those constraints, of the model and additional, that have variables, all of them variables of the model; all others are
ignored. -/
theorem C24_exact {a : SolveArgs} {m : Model} {h : Heap} (hok : SolveOk a m h) (hsol : m.solvable = true)
    (hvar : ∃ x, (m.domain? x).isSome) (n : Nat)
    (hend : (solveRun a m passive n h).2.1.phase = .finished) (hint : (solveRun a m passive n h).2.1.interrupt = none)
    (τ : Subst) (hτ : Assignment m τ) :
    (∃ τ' ∈ (solveRun a m passive n h).1, SameDict τ' τ) ↔
      ∀ c ∈ m.constraints ++ a.adds, Over m c → Holds (solveRun a m passive n h).2.2 c τ := by
  constructor
  · rintro ⟨τ', h1, h2⟩ c hc ho
    refine (holds_congr ?_ (fun x _ => h2 x)).1 ((run_sound hok n τ' h1).2 c hc ho)
    rw [run_heap]
    cases startCase (a := a) m h hok.shuffle with
    | idle h1' _ => rw [solveRun_idle (ph := .finished) trivial h1'] at h1; simp at h1
    | fail e h1' _ _ => rw [solveRun_idle (ph := .raised e) trivial h1'] at h1; simp at h1
    | go H info _ hset hst _ _ =>
      rw [hst]
      simp only
      rw [setup_ok_heap hset]
      exact compileAll_fnOk _ hok.ids hok.fns c hc
  · exact run_complete hok hsol hvar n hend hint τ hτ

theorem final_heap {a : SolveArgs} {m : Model} {h : Heap} (hok : SolveOk a m h) (hsol : m.solvable = true)
    (hvar : ∃ x, (m.domain? x).isSome) (n : Nat) (hend : (solveRun a m passive n h).2.1.phase = .finished) :
    (solveRun a m passive n h).2.2 = compileAll a.solver.compile (m.constraints ++ a.adds) h := by
  rw [run_heap]
  cases startCase (a := a) m h hok.shuffle with
  | idle _ h2 =>
    rcases h2 with h2 | h2
    · rw [h2] at hsol; cases hsol
    · obtain ⟨x, hx⟩ := hvar
      rw [← pureVars_get? hok.wf.names] at hx
      obtain ⟨v, hv⟩ := Option.isSome_iff_exists.1 hx
      have := Dict.mem_keys_of_get? hv
      rw [h2] at this; simp at this
  | fail e h1 _ _ => rw [solveRun_idle (ph := .raised e) trivial h1] at hend; simp [Gen.idle] at hend
  | go H info _ hset hst _ _ => rw [hst]; exact setup_ok_heap hset

/-- So a constraint without variables, or one about an unknown variable, makes no difference to what is handed out (all-different
constraints about unknown variables raise instead). -/
theorem C24_ignored {a : SolveArgs} {m : Model} {h : Heap} (c : Constraint) (hc : ¬ Over m c)
    (hok : SolveOk { a with adds := c :: a.adds } m h) (hsol : m.solvable = true) (hvar : ∃ x, (m.domain? x).isSome) (n n' : Nat)
    (hend : (solveRun { a with adds := c :: a.adds } m passive n h).2.1.phase = .finished)
    (hint : (solveRun { a with adds := c :: a.adds } m passive n h).2.1.interrupt = none)
    (hend' : (solveRun a m passive n' h).2.1.phase = .finished) (hint' : (solveRun a m passive n' h).2.1.interrupt = none)
    (τ : Subst) (hτ : Assignment m τ) :
    (∃ τ' ∈ (solveRun { a with adds := c :: a.adds } m passive n h).1, SameDict τ' τ) ↔
      ∃ τ' ∈ (solveRun a m passive n' h).1, SameDict τ' τ := by
  have hsub : ∀ c' ∈ m.constraints ++ a.adds, c' ∈ m.constraints ++ c :: a.adds := by
    intro c' h'; simp only [List.mem_append, List.mem_cons] at h' ⊢; tauto
  have hok' : SolveOk a m h := ⟨hok.shuffle, hok.wf, sameIds_sub hok.ids hsub, fun c' h' => hok.fns c' (hsub c' h')⟩
  rw [C24_exact hok hsol hvar n hend hint τ hτ, C24_exact hok' hsol hvar n' hend' hint' τ hτ,
    final_heap hok hsol hvar n hend, final_heap hok' hsol hvar n' hend']
  have key : ∀ c' ∈ m.constraints ++ a.adds,
      (Holds (compileAll a.solver.compile (m.constraints ++ c :: a.adds) h) c' τ ↔
        Holds (compileAll a.solver.compile (m.constraints ++ a.adds) h) c' τ) := by
    intro c' h'
    cases hcomp : a.solver.compile with
    | false => exact Iff.rfl
    | true =>
      unfold Holds
      rw [evaluate_of_now (compileAll_now hok.ids c' (hsub c' h')) (compileAll_now hok'.ids c' h') (by rw [compileAll_params, compileAll_params])]
  constructor
  · intro hall c' h' ho
    exact (key c' h').1 (hall c' (hsub c' h') ho)
  · intro hall c' h' ho
    have : c' ∈ m.constraints ++ a.adds := by
      simp only [List.mem_append, List.mem_cons] at h' ⊢
      rcases h' with h' | rfl | h'
      · exact .inl h'
      · exact absurd ho hc
      · exact .inr h'
    exact (key c' this).2 (hall c' this ho)

-- the hypotheses of `C24_ignored` with the constraint `False`
example : ¬ Over exModel ⟨7, .const false⟩ ∧ SolveOk { exArgs with adds := ⟨7, .const false⟩ :: exArgs.adds } exModel exHeap ∧
    (solveRun { exArgs with adds := ⟨7, .const false⟩ :: exArgs.adds } exModel passive 12 exHeap).2.1.interrupt = none := by
  refine ⟨fun h => h.1 rfl, ⟨exOk.shuffle, exOk.wf, ?_, ?_⟩, by rfl⟩
  · intro c hc c' hc' hid
    simp [exModel, exArgs] at hc hc'
    rcases hc with rfl | rfl | rfl <;> rcases hc' with rfl | rfl | rfl <;> simp_all
  · intro c _ e f _ hf; simp [exHeap] at hf

example : (solveRun { exArgs with adds := [⟨7, .expr (.bin .lt (.var "x") (.var "y"))⟩] } exModel passive 12 exHeap).1 =
    [[("y", 3), ("x", 1)]] := by decide

/-! ## C25 -/

/-- C25 is false of the code: `(x == 1 | y == 1) & x == y` means something else when compiled (C05). -/
theorem C25_refuted :
    let c : Constraint := ⟨0, .expr (.bin .and (.bin .or (.bin .eq (.var "x") (.const 1)) (.bin .eq (.var "y") (.const 1)))
      (.bin .eq (.var "x") (.var "y")))⟩
    let m : Model := { exModel with constraints := [c] }
    (solveRun { exArgs with solver := { compile := false } } m passive 30 exHeap).1 = [[("y", 1), ("x", 1)]] ∧
    (solveRun { exArgs with solver := { compile := true } } m passive 30 exHeap).1 =
      [[("y", 3), ("x", 1)], [("y", 2), ("x", 1)], [("y", 1), ("x", 1)]] := by decide

/-- Exceptions can differ even for a safe expression: `(y != 0) & (x % y == 0)` over x in 1..2, y in 1, 0 ends with its
solutions when compiled, and with ZeroDivisionError otherwise. -/
theorem C25_skips :
    let c : Constraint := ⟨0, .expr (.bin .and (.bin .ne (.var "y") (.const 0)) (.bin .eq (.bin .mod (.var "x") (.var "y")) (.const 0)))⟩
    let m : Model := { vars := [("x", ⟨some [1, 2], none⟩), ("y", ⟨some [1, 0], none⟩)], constraints := [c], solvable := true }
    (solveRun { exArgs with solver := { compile := true } } m passive 30 exHeap).1 = [[("y", 1), ("x", 1)], [("y", 1), ("x", 2)]] ∧
    (solveRun { exArgs with solver := { compile := true } } m passive 30 exHeap).2.1.phase = .finished ∧
    (solveRun { exArgs with solver := { compile := false } } m passive 30 exHeap).2.1.phase = .raised .zeroDivision := by
  exact ⟨by decide, rfl, rfl⟩

/-- C25 for models whose constraint expressions are safe to compile and contain no `&` and `|`, or always have a value on the
domains: the same iteration step by step, exceptions included. Missing: unsafe expressions (see C05) and expressions with `&`
or `|` that can raise, where the compiled `and`/`or` may skip the part that raises (`C25_skips`). -/
theorem C25_partial {a : SolveArgs} {m : Model} {h : Heap} (hok : SolveOk a m h)
    (hfresh : ∀ c ∈ m.constraints ++ a.adds, h.fns c.id = none)
    (hsafe : ∀ c ∈ m.constraints ++ a.adds, ∀ e, c.kind = .expr e → e.Safe h.params ∧
      (e.eager = true ∨ ∀ σ, BoundIn m c σ → ∃ v, e.eval h.params σ = .ok v)) (n : Nat) :
    (solveRun { a with solver := { a.solver with compile := true } } m passive n h).1 =
      (solveRun { a with solver := { a.solver with compile := false } } m passive n h).1 ∧
    (solveRun { a with solver := { a.solver with compile := true } } m passive n h).2.1 =
      (solveRun { a with solver := { a.solver with compile := false } } m passive n h).2.1 := by
  have key : ∀ cs : List Constraint, (∀ c ∈ cs, c ∈ m.constraints ++ a.adds) → ∀ c ∈ cs,
      EvalEq m (compileAll true cs h) (compileAll false cs h) c := by
    intro cs hcs c hc σ hσ
    have hs := sameIds_sub hok.ids hcs
    have hnow := compileAll_now (h := h) hs c hc
    have hfr := hfresh c (hcs c hc)
    have hsf := hsafe c (hcs c hc)
    obtain ⟨i, k⟩ := c
    cases k with
    | const b => rfl
    | allDiff ns => rfl
    | expr e =>
      obtain ⟨hsf, htot⟩ := hsf e rfl
      have hf := hnow e rfl
      rw [compileAll_params] at hf
      obtain ⟨_, _, hcall, hsame⟩ := safe_compile hsf
      have hcall : (asFunction h.params e).call σ = e.eval h.params σ := by
        rcases htot with hg | htot
        · refine hsame hg σ (fun x hx => ?_)
          obtain ⟨v, _, hv, _⟩ := hσ x hx
          rw [hv]; simp
        · obtain ⟨v, hv⟩ := htot σ hσ
          rw [hv]; exact hcall σ v hv
      have e1 : (compileAll false cs h).fns i = none := hfr
      have e2 : (compileAll false cs h).params = h.params := rfl
      simp only at hf
      simp only [Constraint.evaluate, hf, e1, e2, hcall]
  refine (solveRun_on (a := { a with solver := { a.solver with compile := true } })
    (a' := { a with solver := { a.solver with compile := false } }) hok.wf.names rfl rfl rfl rfl ?_ ?_).2 n
  · intro p c q heq
    exact key (p ++ [c]) (by rw [show m.constraints ++ a.adds = p ++ c :: q from heq]; intro c' hc'; simp at hc' ⊢; rcases hc' with h | h <;> simp [h]) c (by simp)
  · intro c hc
    exact key _ (fun c hc => hc) c hc

example : (solveRun { exArgs with solver := { compile := true } } exModel passive 12 exHeap).1 =
    (solveRun { exArgs with solver := { compile := false } } exModel passive 12 exHeap).1 := by
  refine (C25_partial (a := exArgs) exOk (by intro c _; rfl) ?_ 12).1
  intro c hc e he
  simp [exModel, exArgs] at hc
  rcases hc with rfl | rfl
  · cases he
    refine ⟨by decide, .inr ?_⟩
    intro σ hσ
    obtain ⟨v, _, hv, _⟩ := hσ "x" (by decide)
    obtain ⟨w, _, hw, _⟩ := hσ "y" (by decide)
    simp [Expr.eval, hv, hw, Bind.bind, Except.bind, BOp.op]
  · cases he

/-! ## C26 -/

/-- C26, first half: after any history, parameters have the values last assigned. -/
theorem C26_values (es : List Event) (h : Heap) : (es.foldl Event.run h).params = assigned h.params es := events_params es h

/-- C26 for solvers that compile (the default): after any history of assignments and solves (any solver), a solve runs
exactly as it would with the values last assigned and nothing compiled before. -/
theorem C26_partial {a : SolveArgs} {m : Model} (hn : m.vars.keys.Nodup) (hids : SameIds (m.constraints ++ a.adds))
    (hcomp : a.solver.compile = true) (h : Heap) (es : List Event) (n : Nat) :
    (solveRun a m passive n (es.foldl Event.run h)).1 =
      (solveRun a m passive n { h with fns := fun _ => none, params := assigned h.params es }).1 ∧
    (solveRun a m passive n (es.foldl Event.run h)).2.1 =
      (solveRun a m passive n { h with fns := fun _ => none, params := assigned h.params es }).2.1 :=
  (solveRun_compiled hn hcomp hids (events_params es h)).2 n

/-- The same for solvers that do not compile, if none of the earlier solves did. -/
theorem C26_interpreted_partial {a : SolveArgs} {m : Model} (hn : m.vars.keys.Nodup) (hcomp : a.solver.compile = false) (h : Heap)
    (hfresh : ∀ c ∈ m.constraints ++ a.adds, h.fns c.id = none) (es : List Event) (hes : Interpreted es) (n : Nat) :
    (solveRun a m passive n (es.foldl Event.run h)).1 =
      (solveRun a m passive n { h with fns := fun _ => none, params := assigned h.params es }).1 ∧
    (solveRun a m passive n (es.foldl Event.run h)).2.1 =
      (solveRun a m passive n { h with fns := fun _ => none, params := assigned h.params es }).2.1 :=
  (solveRun_interpreted hn hcomp (fun c hc => by rw [events_fns hes]; exact hfresh c hc) (events_params es h)).2 n

/-- `x == p`, `x` in 1..3. -/
def pModel : Model where
  vars := [("x", ⟨some [1, 2, 3], none⟩), ("p", ⟨none, some 0⟩)]
  constraints := [⟨0, .expr (.bin .eq (.var "x") (.param 0 "p"))⟩]
  solvable := true

example : (solveRun exArgs pModel passive 12 ([.setParam 0 1, .solve exArgs pModel 12, .setParam 0 2].foldl Event.run exHeap)).1 =
    [[("x", 2)]] := by decide

/-- C26 is false of the code: a solver that does not compile uses the function compiled by an earlier solve, with the
old value of the parameter. -/
theorem C26_refuted :
    let a : SolveArgs := { exArgs with solver := { compile := false } }
    (solveRun a pModel passive 12 ([.setParam 0 1, .solve exArgs pModel 12, .setParam 0 2].foldl Event.run exHeap)).1 = [[("x", 1)]] ∧
    (solveRun a pModel passive 12 ([.setParam 0 2].foldl Event.run exHeap)).1 = [[("x", 2)]] := by decide

/-- A second way: a constraint without variables is evaluated once, when it is added, and dropped if true.
The new value is never looked at. -/
theorem C26_refuted_frozen :
    let w := runCalls [.addBool (some "x"), .addParam 1 (some "p"), .addCon (.expr (.bin .eq (.param 2 "p") (.const 1))), .setParam 2 0] ⟨.empty, ⟨fun _ => 0, fun _ => none, 2, 0⟩⟩
    w.heap.params 2 = 0 ∧ (Expr.bin .eq (.param 2 "p") (.const 1)).eval w.heap.params [] = .ok 0 ∧
    (solveRun exArgs w.model passive 12 w.heap).1 = [[("x", 0)], [("x", 1)]] := by decide

/-! ## C27 -/

/-- Several iterations in progress: `none` before the first `next()`, then the `ModelInfo` and generator; and what each
has handed out. -/
structure Multi where
  heap : Heap
  its : Nat → Option (Info × Gen)
  outs : Nat → List Subst

/-- One step of iteration `i` (the calls `jobs i`). -/
def Multi.step (jobs : Nat → SolveArgs × Model) (w : Multi) (i : Nat) : Multi :=
  match w.its i with
  | none =>
    let (h', info, g) := startSolve (jobs i).1 (jobs i).2 w.heap
    { w with heap := h', its := fun j => if j = i then some (info, g) else w.its j }
  | some (info, g) =>
    let (g', h') := sysStep (jobs i).1.cfg (candidates info) passive g w.heap
    let new := match g.phase with | .running => g'.phase.output | _ => []
    ⟨h', fun j => if j = i then some (info, g') else w.its j, fun j => if j = i then w.outs j ++ new else w.outs j⟩

/-- Iteration `i` alone, after `k` steps. -/
def alone (job : SolveArgs × Model) (h : Heap) : Nat → Option (Info × Gen) × List Subst
  | 0 => (none, [])
  | k + 1 => (some ((startSolve job.1 job.2 h).2.1, (solveRun job.1 job.2 passive k h).2.1), (solveRun job.1 job.2 passive k h).1)

theorem sysRun_one_more {S : Type} (cfg : RunCfg) (cand : S → Name → Subst → Res (List Int)) (act : S → Subst → Res S) (n : Nat) (g : Gen) (s : S) :
    sysRun cfg cand act (n + 1) g s =
      let r := sysRun cfg cand act n g s
      let p := sysStep cfg cand act r.2.1 r.2.2
      (r.1 ++ (match r.2.1.phase with | .running => p.1.phase.output | _ => []), p.1, p.2) := by
  rw [sysRun_add]
  simp only [sysRun, List.append_nil]
  rfl

theorem start_cons_now {a : SolveArgs} {m : Model} (hcomp : a.solver.compile = true) (hids : SameIds (m.constraints ++ a.adds)) (h : Heap) :
    ∀ x, ∀ c ∈ (startSolve a m h).2.1.cons x, c ∈ m.constraints ++ a.adds ∧ FnNow (startSolve a m h).1 c := by
  intro x c hc
  unfold startSolve at hc ⊢
  by_cases hsol : m.solvable = true
  · simp only [hsol, Bool.not_true, Bool.false_eq_true, if_false] at hc ⊢
    cases hs : setup a.solver.compile m a.adds h with
    | mk H r =>
      rw [hs] at hc
      cases r with
      | error e => simp [Info.init] at hc
      | ok info =>
        have hc' : c ∈ info.cons x := by
          simp only at hc
          split at hc <;> exact hc
        have hmem := setup_cons hs x c hc'
        refine ⟨hmem, ?_⟩
        have hH := setup_ok_heap hs
        rw [hcomp] at hH
        have : FnNow H c := by rw [hH]; exact compileAll_now hids c hmem
        simp only
        split <;> exact this
  · have hsol : m.solvable = false := by simpa using hsol
    simp [hsol, Info.init] at hc

theorem candidates_eq {info : Info} {h h' : Heap} (hp : h.params = h'.params)
    (hf : h.fns = h'.fns ∨ ∀ x, ∀ c ∈ info.cons x, FnNow h c ∧ FnNow h' c) : candidates info h = candidates info h' := by
  refine candidates_congr (fun x c hc σ => ?_)
  rcases hf with hf | hf
  · exact evaluate_of_same (by rw [hf]) hp σ
  · exact evaluate_of_now (hf x c hc).1 (hf x c hc).2 hp σ

/-- C27: any number of iterations (calls `jobs i` of `solve`, with the same compilation setting), advanced in any order:
each is at any time exactly where it would be alone after the same number of its own steps. -/
theorem C27_interleaved (jobs : Nat → SolveArgs × Model) (comp : Bool) (hcomp : ∀ i, (jobs i).1.solver.compile = comp)
    (hn : ∀ i, (jobs i).2.vars.keys.Nodup)
    (hids : ∀ i j c c', c ∈ (jobs i).2.constraints ++ (jobs i).1.adds → c' ∈ (jobs j).2.constraints ++ (jobs j).1.adds → c.id = c'.id → c = c')
    (h : Heap) (schedule : List Nat) (i : Nat) :
    let w := schedule.foldl (Multi.step jobs) ⟨h, fun _ => none, fun _ => []⟩
    (w.its i, w.outs i) = alone (jobs i) h (schedule.count i) := by
  have hself : ∀ i, SameIds ((jobs i).2.constraints ++ (jobs i).1.adds) := fun i c hc c' hc' => hids i i c c' hc hc'
  suffices ∀ (sch : List Nat),
      let w := sch.foldl (Multi.step jobs) ⟨h, fun _ => none, fun _ => []⟩
      w.heap.params = h.params ∧ (comp = false → w.heap.fns = h.fns) ∧
      (comp = true → ∀ i, 0 < sch.count i → ∀ x, ∀ c ∈ (startSolve (jobs i).1 (jobs i).2 h).2.1.cons x, FnNow w.heap c) ∧
      ∀ i, (w.its i, w.outs i) = alone (jobs i) h (sch.count i) from (this schedule).2.2.2 i
  intro sch
  induction sch using List.reverseRecOn with
  | nil => exact ⟨rfl, fun _ => rfl, by simp, fun i => rfl⟩
  | append_singleton sch k ih =>
    intro w
    have hw : w = Multi.step jobs (sch.foldl (Multi.step jobs) ⟨h, fun _ => none, fun _ => []⟩) k := by
      show List.foldl _ _ _ = _
      rw [List.foldl_append]; rfl
    generalize sch.foldl (Multi.step jobs) ⟨h, fun _ => none, fun _ => []⟩ = v at ih hw
    obtain ⟨i1, i2, i3, i4⟩ := ih
    have hcount : ∀ j, (sch ++ [k]).count j = sch.count j + (if k = j then 1 else 0) := by
      intro j; rw [List.count_append, List.count_singleton]; simp [beq_iff_eq]
    have hk4 := i4 k
    cases hc : sch.count k with
    | zero =>
      rw [hc] at hk4
      simp only [alone, Prod.mk.injEq] at hk4
      have hstep : w = { v with heap := (startSolve (jobs k).1 (jobs k).2 v.heap).1, its := fun j => if j = k then some (startSolve (jobs k).1 (jobs k).2 v.heap).2 else v.its j } := by
        rw [hw]; simp only [Multi.step, hk4.1]
      have hsame : (startSolve (jobs k).1 (jobs k).2 v.heap).2 = (startSolve (jobs k).1 (jobs k).2 h).2 := by
        cases hcp : comp with
        | true => exact (solveRun_compiled (hn k) (by rw [hcomp, hcp]) (hself k) i1).1
        | false => exact (solveRun_interpreted (hn k) (by rw [hcomp, hcp]) (fun c _ => by rw [i2 hcp]) i1).1
      obtain ⟨pre, post, hpre, hheap⟩ := startSolve_heap (jobs k).1 (jobs k).2 v.heap
      rw [hcomp] at hheap
      rw [hstep]
      refine ⟨?_, ?_, ?_, ?_⟩
      · simp only; rw [hheap, compileAll_params, i1]
      · intro hcp; simp only; rw [hheap, hcp]; exact i2 hcp
      · intro hcp i hi x c hcx
        simp only
        by_cases hik : k = i
        · subst hik
          rw [← hsame] at hcx
          exact (start_cons_now (by rw [hcomp, hcp]) (hself k) _ x c hcx).2
        · have hi' : 0 < sch.count i := by rw [hcount i, if_neg hik] at hi; simpa using hi
          have hnow := i3 hcp i hi' x c hcx
          have hmem := (start_cons_now (by rw [hcomp, hcp]) (hself i) _ x c hcx).1
          rw [hheap, hcp]
          refine compileAll_keep hnow (fun c' hc' hid => hids i k c c' hmem ?_ hid)
          rw [hpre]; exact List.mem_append_left _ hc'
      · intro i
        by_cases hik : i = k
        · subst hik
          rw [hcount, if_pos rfl, hc]
          simp only [if_true, alone]
          rw [hsame, hk4.2]
          rfl
        · rw [hcount, if_neg (Ne.symm hik)]
          simp only [if_neg hik]
          exact i4 i
    | succ n =>
      rw [hc] at hk4
      simp only [alone, Prod.mk.injEq] at hk4
      have hcand : candidates (startSolve (jobs k).1 (jobs k).2 h).2.1 v.heap =
          candidates (startSolve (jobs k).1 (jobs k).2 h).2.1 (startSolve (jobs k).1 (jobs k).2 h).1 := by
        obtain ⟨pre, post, hpre, hheap⟩ := startSolve_heap (jobs k).1 (jobs k).2 h
        rw [hcomp] at hheap
        refine candidates_eq (by rw [hheap, compileAll_params, i1]) ?_
        cases hcp : comp with
        | true =>
          right; intro x c hcx
          exact ⟨i3 hcp k (by omega) x c hcx, (start_cons_now (by rw [hcomp, hcp]) (hself k) _ x c hcx).2⟩
        | false => left; rw [hheap, i2 hcp, hcp]; rfl
      generalize hg : (solveRun (jobs k).1 (jobs k).2 passive n h).2.1 = g at hk4
      have hst : ∀ s s' : Heap, candidates (startSolve (jobs k).1 (jobs k).2 h).2.1 s = candidates (startSolve (jobs k).1 (jobs k).2 h).2.1 s' →
          sysStep (jobs k).1.cfg (candidates (startSolve (jobs k).1 (jobs k).2 h).2.1) passive g s =
          ((sysStep (jobs k).1.cfg (candidates (startSolve (jobs k).1 (jobs k).2 h).2.1) passive g s').1, s) := by
        intro s s' he
        unfold sysStep passive
        cases g.phase <;> simp [he]
      have hmore := sysRun_one_more (jobs k).1.cfg (candidates (startSolve (jobs k).1 (jobs k).2 h).2.1) passive n
        (startSolve (jobs k).1 (jobs k).2 h).2.2 (startSolve (jobs k).1 (jobs k).2 h).1
      rw [← solveRun_eq, ← solveRun_eq] at hmore
      simp only at hmore
      rw [hg, run_heap] at hmore
      have hh : w.heap = v.heap := by
        rw [hw]; simp only [Multi.step, hk4.1]
        rw [hst _ _ hcand]
      refine ⟨by rw [hh]; exact i1, by rw [hh]; exact i2, ?_, ?_⟩
      · intro hcp i hi x c hcx
        rw [hh]
        refine i3 hcp i ?_ x c hcx
        by_cases hik : k = i
        · subst hik; omega
        · rw [hcount i, if_neg hik] at hi; simpa using hi
      · intro i
        by_cases hik : i = k
        · subst hik
          rw [hcount, if_pos rfl, hc]
          simp only [alone]
          rw [hmore, hw]
          simp only [Multi.step, hk4.1, if_true]
          rw [hst _ _ hcand, hk4.2]
        · rw [hcount, if_neg (Ne.symm hik)]
          rw [hw]
          simp only [Multi.step, hk4.1, if_neg hik]
          exact i4 i

/-- Two iterations of the running example, alternating at first. -/
example : ([0, 1, 0, 0, 1, 1, 1, 0, 0, 0, 0, 0, 1, 1, 1, 1, 1, 1, 1, 0, 0, 0, 1, 1, 1, 1, 1, 1, 0, 0].foldl (Multi.step (fun i => (if i = 0 then exArgs else
    { exArgs with solver := { policy := .ordered } }, exModel))) ⟨exHeap, fun _ => none, fun _ => []⟩).outs 1 =
    [[("x", 1), ("y", 3)], [("x", 3), ("y", 1)]] := by decide

end Satisfy.Props
