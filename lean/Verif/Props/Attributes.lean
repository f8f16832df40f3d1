import Verif.Attributes
import Verif.Props.Settings
import Verif.Props.Optimize
/-!
# Settings and objectives, right and wrong ones: C75
-/

namespace Satisfy.Props
open Satisfy

/-! ## The specification -/

/-- The value means this bound: `None` and `INFINITY` mean none. -/
inductive Bounds : Value → Option Int → Prop
  | none : Bounds .none Option.none
  | infinity : Bounds .infinity Option.none
  | num (n : Int) : Bounds (.num n) (some n)

/-- `None`, zero and empty things are false. -/
def isTrue : Value → Bool
  | .none | .num 0 | .other false => false
  | _ => true

theorem truth_eq (v : Value) : v.truth = isTrue v := by
  match v with
  | .none | .infinity | .policy _ | .other true | .other false | .num (.negSucc _) | .num (.ofNat (_ + 1)) => rfl
  | .num 0 => rfl

/-- The names of the settings. -/
def keywords : List Name := ["var_selection_policy", "timeout", "limit", "compile_constraints"]

/-- The value given last, or the default. -/
def latest {α : Type} (given : List α) (default : α) : α := given.getLast?.getD default

/-- The policies, bounds and switches among the assignments. -/
def givenPolicies (L : List Assign) : List Policy := L.filterMap fun | .policy (.policy p) => some p | _ => Option.none
def givenTimeouts (L : List Assign) : List Value := L.filterMap fun | .timeout v => some v | _ => Option.none
def givenLimits (L : List Assign) : List Value := L.filterMap fun | .limit v => some v | _ => Option.none
def givenCompile (L : List Assign) : List Value := L.filterMap fun | .compile v => some v | _ => Option.none

/-- `None` for `INFINITY`. -/
def finite (v : Value) : Value := if v = .infinity then .none else v

/-- The settings `args` of a call or a constructor are those of `s`, those not given are as in `s0`. -/
structure UsedAsGiven (s0 : Solver) (args : Dict Value) (s : Solver) : Prop where
  names : ∀ k ∈ args.keys, k ∈ keywords
  policy : (∃ v, args.get? "var_selection_policy" = some v ∧ v = .policy s.policy) ∨ (args.get? "var_selection_policy" = Option.none ∧ s.policy = s0.policy)
  timeout : (∃ v, args.get? "timeout" = some v ∧ Bounds v s.timeout) ∨ (args.get? "timeout" = Option.none ∧ s.timeout = s0.timeout)
  limit : (∃ v, args.get? "limit" = some v ∧ Bounds v s.limit) ∨ (args.get? "limit" = Option.none ∧ s.limit = s0.limit)
  compile : (∃ v, args.get? "compile_constraints" = some v ∧ s.compile = isTrue v) ∨
    (args.get? "compile_constraints" = Option.none ∧ s.compile = s0.compile)

/-- The object has these settings. -/
structure Is (o : SolverObj) (s : Solver) : Prop where
  policy : o.policy = .policy s.policy
  timeout : Bounds o.timeout s.timeout
  limit : Bounds o.limit s.limit
  compile : o.compile = s.compile

/-- The full claim about settings: whatever is given to the constructor or to a call is used as given, or it is rejected by an exception before anything is
handed out. -/
def C75 : Prop :=
  (∀ (args : Dict Value), (∃ e, SolverObj.init args = .error e) ∨ ∃ o s, SolverObj.init args = .ok o ∧ UsedAsGiven {} args s ∧ Is o s) ∧
  ∀ (o : SolverObj) (s0 : Solver) (args : Dict Value) (env : Around) (m : Model) (h : Heap), Is o s0 → (∀ l, (env.shuffle l).Perm l) →
    (∀ n, (o.solve args env m passive n h).1 = [] ∧ (0 < n → ∃ e, (o.solve args env m passive n h).2.1.phase = .raised e)) ∨
    ∃ s, UsedAsGiven s0 args s ∧ ∀ n, o.solve args env m passive n h = solveRun ⟨s, env.adds, env.shuffle, env.clock⟩ m passive n h

/-! ## The constructor and the properties -/

/-- **The constructor.** It accepts its four keywords, with a policy as policy and anything else as it may be; otherwise it raises `TypeError`. -/
theorem C75_constructor (args : Dict Value) :
    ((∃ k ∈ args.keys, k ∉ keywords) ∨ (∃ v, args.get? "var_selection_policy" = some v ∧ ∀ p, v ≠ .policy p) →
      SolverObj.init args = .error .typeError) ∧
    ((∀ k ∈ args.keys, k ∈ keywords) → (∀ v, args.get? "var_selection_policy" = some v → ∃ p, v = .policy p) →
      SolverObj.init args = .ok ⟨(args.get? "var_selection_policy").getD (.policy .groups), finite ((args.get? "timeout").getD .none),
        finite ((args.get? "limit").getD .none), ((args.get? "compile_constraints").map isTrue).getD true⟩) := by
  constructor
  · intro hbad
    unfold SolverObj.init
    rw [show settingNames = keywords from rfl]
    split
    · rfl
    · rename_i hk
      rcases hbad with ⟨k, hk1, hk2⟩ | ⟨v, hv, hp⟩
      · exact absurd (List.any_eq_true.2 ⟨k, hk1, by simpa using hk2⟩) hk
      · rw [hv]
        cases v <;> first | rfl | exact absurd rfl (hp _)
  · intro hk hp
    unfold SolverObj.init
    rw [show settingNames = keywords from rfl]
    have hno : args.keys.any (fun k => decide (k ∉ keywords)) = false := by
      rw [List.any_eq_false]
      intro k h1
      simpa using hk k h1
    rw [hno]
    have hpol : ∃ p, (args.get? "var_selection_policy").getD (.policy .groups) = .policy p := by
      cases hg : args.get? "var_selection_policy" with
      | none => exact ⟨_, rfl⟩
      | some v => obtain ⟨p, rfl⟩ := hp v hg; exact ⟨p, rfl⟩
    obtain ⟨p, hpol⟩ := hpol
    simp only [hpol]
    cases hc : args.get? "compile_constraints" with
    | none => rfl
    | some v => simp only [Option.getD_some, Option.map_some, ← truth_eq]; rfl

/-- **The properties.** An assignment raises exactly if a policy is asked for and it is none, and then `TypeError`, and nothing is changed. -/
theorem C75_assign (o : SolverObj) (x : Assign) :
    ((∃ v, x = .policy v ∧ ∀ p, v ≠ .policy p) → o.assign x = .error .typeError ∧ o.after x = o) ∧
    ((¬ ∃ v, x = .policy v ∧ ∀ p, v ≠ .policy p) → o.assign x = .ok (o.after x)) := by
  constructor
  · rintro ⟨v, rfl, hv⟩
    have : o.assign (.policy v) = .error .typeError := by cases v <;> first | rfl | exact absurd rfl (hv _)
    exact ⟨this, by unfold SolverObj.after; rw [this]⟩
  · intro h
    cases x with
    | policy v => cases v <;> first | rfl | exact absurd ⟨_, rfl, by simp⟩ h
    | timeout v => rfl
    | limit v => rfl
    | compile v => rfl

/-- After any history of assignments, each property has the value given last that was accepted. -/
theorem C75_history (o : SolverObj) (L : List Assign) :
    (L.foldl SolverObj.after o).policy = latest ((givenPolicies L).map .policy) o.policy ∧
    (L.foldl SolverObj.after o).timeout = latest ((givenTimeouts L).map finite) o.timeout ∧
    (L.foldl SolverObj.after o).limit = latest ((givenLimits L).map finite) o.limit ∧
    (L.foldl SolverObj.after o).compile = latest ((givenCompile L).map isTrue) o.compile := by
  have hcons : ∀ {α : Type} (a : α) (l : List α) (d : α), latest (a :: l) d = latest l a := by
    intro α a l d; unfold latest; cases l <;> simp [List.getLast?_cons]
  induction L generalizing o with
  | nil => exact ⟨rfl, rfl, rfl, rfl⟩
  | cons x L ih =>
    obtain ⟨h1, h2, h3, h4⟩ := ih (o.after x)
    simp only [List.foldl_cons]
    rw [h1, h2, h3, h4]
    cases x with
    | policy v => cases v <;> simp [givenPolicies, givenTimeouts, givenLimits, givenCompile, hcons, SolverObj.after, SolverObj.assign, SolverObj.setPolicy]
    | timeout v => simp [givenPolicies, givenTimeouts, givenLimits, givenCompile, hcons, SolverObj.after, SolverObj.assign, SolverObj.setTimeout, finite]
    | limit v => simp [givenPolicies, givenTimeouts, givenLimits, givenCompile, hcons, SolverObj.after, SolverObj.assign, SolverObj.setLimit, finite]
    | compile v => simp [givenPolicies, givenTimeouts, givenLimits, givenCompile, hcons, SolverObj.after, SolverObj.assign, SolverObj.setCompile, truth_eq]

-- a history with a rejected assignment
example : [Assign.policy (.policy .random), .limit (.num 3), .policy (.other true), .limit .infinity].foldl SolverObj.after
    ⟨.policy .groups, .none, .none, true⟩ = ⟨.policy .random, .none, .none, true⟩ := by decide

/-! ## A call -/

/-- **A call.** With settings that are right (a policy; bounds that are `None` or numbers), `solve` runs with these, and with those of the solver where none are
given. Missing from the full claim: what follows. -/
theorem C75_partial (o : SolverObj) (s0 s : Solver) (args : Dict Value) (env : Around) (m : Model) (act : Heap → Subst → Res Heap) (n : Nat) (h : Heap)
    (ho : Is o s0) (hm : UsedAsGiven s0 args s) (hc : args.get? "compile_constraints" = Option.none)
    (ht : args.get? "timeout" ≠ some .infinity) (hl : args.get? "limit" ≠ some .infinity) (hot : o.timeout ≠ .infinity) (hol : o.limit ≠ .infinity) :
    o.solve args env m act n h = solveRun ⟨s, env.adds, env.shuffle, env.clock⟩ m act n h := by
  have key : ∀ (v own : Value) (g : Option Value) (b b0 : Option Int), (∃ v, g = some v ∧ Bounds v b) ∨ (g = Option.none ∧ b = b0) → Bounds own b0 →
      g ≠ some .infinity → own ≠ .infinity → (g.getD own).setting ≠ .infinity ∧ Setting.bound (g.getD own).setting = b := by
    intro _ own g b b0 h1 h2 h3 h4
    rcases h1 with ⟨v, rfl, hv⟩ | ⟨rfl, rfl⟩
    · cases hv with
      | none => exact ⟨nofun, rfl⟩
      | infinity => exact absurd rfl h3
      | num n => exact ⟨nofun, rfl⟩
    · cases h2 with
      | none => exact ⟨nofun, rfl⟩
      | infinity => exact absurd rfl h4
      | num n => exact ⟨nofun, rfl⟩
  obtain ⟨t1, t2⟩ := key .none o.timeout _ _ _ hm.timeout ho.timeout ht hot
  obtain ⟨l1, l2⟩ := key .none o.limit _ _ _ hm.limit ho.limit hl hol
  unfold SolverObj.solve
  rw [C57_partial _ _ (by simpa using t1) (by simpa using l1)]
  have hp : ((args.get? "var_selection_policy").getD o.policy).selects = s.policy := by
    rcases hm.policy with ⟨v, hv, rfl⟩ | ⟨hv, hs⟩
    · rw [hv]; rfl
    · rw [hv, hs, Option.getD_none, ho.policy]; rfl
  have hcm : o.compile = s.compile := by
    rcases hm.compile with ⟨v, hv, _⟩ | ⟨_, hs⟩
    · rw [hc] at hv; cases hv
    · rw [hs, ho.compile]
  simp only [Option.map_some, Option.getD_some, t2, l2, hp, hcm]
  rfl

/-- A policy that is none, in a call: it is not rejected, and means ORDERED. -/
theorem C75_wrong_policy (o : SolverObj) (args args' : Dict Value) (v : Value) (hv : ∀ p, v ≠ .policy p) (ha : args.get? "var_selection_policy" = some v)
    (ha' : args'.get? "var_selection_policy" = some (.policy .ordered)) (ht : args'.get? "timeout" = args.get? "timeout")
    (hl : args'.get? "limit" = args.get? "limit") (env : Around) (m : Model) (act : Heap → Subst → Res Heap) (n : Nat) (h : Heap) :
    o.solve args env m act n h = o.solve args' env m act n h := by
  unfold SolverObj.solve
  rw [ha, ha', ht, hl]
  cases v <;> first | rfl | exact absurd rfl (hv _)

/-- Keywords other than the three that `solve` looks for make no difference, whatever they are: misspelled ones, and `compile_constraints`. -/
theorem C75_ignored (o : SolverObj) (args args' : Dict Value) (hp : args'.get? "var_selection_policy" = args.get? "var_selection_policy")
    (ht : args'.get? "timeout" = args.get? "timeout") (hl : args'.get? "limit" = args.get? "limit") (env : Around) (m : Model)
    (act : Heap → Subst → Res Heap) (n : Nat) (h : Heap) : o.solve args env m act n h = o.solve args' env m act n h := by
  unfold SolverObj.solve
  rw [hp, ht, hl]

/-- A timeout that is no number, not `None` and not `INFINITY` is accepted by constructor and property; every `solve` that has something to search then raises. -/
theorem C75_wrong_timeout (o : SolverObj) (b : Bool) (args : Dict Value) (hg : args.get? "timeout" = Option.none) (env : Around)
    (hs : ∀ l, (env.shuffle l).Perm l) (m : Model) (act : Heap → Subst → Res Heap) (n : Nat) (h : Heap) (hsol : m.solvable = true)
    (hvars : m.pureVars.keys ≠ []) :
    o.assign (.timeout (.other b)) = .ok (o.after (.timeout (.other b))) ∧
    ((o.after (.timeout (.other b))).solve args env m act (n + 1) h).1 = [] ∧
      ∃ e, ((o.after (.timeout (.other b))).solve args env m act (n + 1) h).2.1.phase = .raised e ∧
        (e = .typeError ∨ (setup o.compile m env.adds h).2 = .error e) := by
  refine ⟨rfl, ?_⟩
  have := C57_timeout_infinity ⟨{ policy := ((args.get? "var_selection_policy").getD o.policy).selects, compile := o.compile }, env.adds, env.shuffle, env.clock⟩
    hs (some ((args.get? "limit").getD o.limit).setting) m act n h hsol hvars
  unfold SolverObj.solve
  rw [hg]
  exact this

/-- `ModelSolver(solver=…, **args)`: the settings are not looked at, not even the keywords. -/
theorem C75_model_solver (o : SolverObj) (args : Dict Value) : modelSolverInit (some o) args = .ok o := rfl

/-- Without a solver, a `ModelSolver` has the solver that the constructor makes of the arguments, and its iteration is that of `solve` without arguments. -/
theorem C75_model_solver_iter (args : Dict Value) (o : SolverObj) (h1 : modelSolverInit Option.none args = .ok o) (s : Solver) (ho : Is o s)
    (env : Around) (m : Model) (act : Heap → Subst → Res Heap) (n : Nat) (h : Heap) :
    modelSolverIter o env m act n h = solveRun ⟨s, env.adds, env.shuffle, env.clock⟩ m act n h := by
  have hfin : ∀ v, finite v ≠ .infinity := by intro v; unfold finite; split <;> simp_all
  have hb : o.timeout ≠ .infinity ∧ o.limit ≠ .infinity := by
    by_cases hk : ∀ k ∈ args.keys, k ∈ keywords
    · by_cases hp : ∀ v, args.get? "var_selection_policy" = some v → ∃ p, v = .policy p
      · have := (C75_constructor args).2 hk hp
        rw [modelSolverInit, this] at h1
        cases h1
        exact ⟨hfin _, hfin _⟩
      · push Not at hp
        have := (C75_constructor args).1 (.inr (by obtain ⟨v, h1, h2⟩ := hp; exact ⟨v, h1, h2⟩))
        rw [modelSolverInit, this] at h1; cases h1
    · push Not at hk
      have := (C75_constructor args).1 (.inl hk)
      rw [modelSolverInit, this] at h1; cases h1
  exact C75_partial o s s [] env m act n h ho ⟨by simp [Dict.keys], .inr ⟨rfl, rfl⟩, .inr ⟨rfl, rfl⟩, .inr ⟨rfl, rfl⟩, .inr ⟨rfl, rfl⟩⟩ rfl nofun nofun hb.1 hb.2

/-! ## Objectives -/

/-- `Minimize(x)` and `Maximize(x)` of something that is no expression (a number, such as an empty `sum`): `TypeError`. -/
theorem C75_objective (maximize : Bool) (x : Obj) :
    (∀ v, x = .int v → Objective.make maximize x = .error .typeError) ∧ ∀ e, x = .expr e → Objective.make maximize x = .ok ⟨maximize, e⟩ :=
  ⟨fun v h => by rw [h]; rfl, fun e h => by rw [h]; rfl⟩

theorem makeChecked_some (os : List Objective) (w : World) : makeChecked (os.map some) w = makeConstraints os w := by
  induction os generalizing w with
  | nil => rfl
  | cons o os ih =>
    simp only [List.map_cons, makeChecked, makeConstraints, Api.bind_apply]
    cases makeConstraint o w with
    | mk w1 r =>
      cases r with
      | error e => rfl
      | ok k => simp only [ih]

/-- **Objectives.** One objective is a collection of one; for a collection of objectives `optimize` does what `optimizeRun` (C28 – C31, C53, C66) does; what cannot
be iterated is a `TypeError`, and nothing is changed. -/
theorem C75_optimize (a : SolveArgs) (os : List Objective) (n : Nat) (w : World) :
    (∀ o, optimizeGiven a (.one o) n w = optimizeRun a [o] n w) ∧
    optimizeGiven a (.items (os.map some)) n w = optimizeRun a os n w ∧
    optimizeGiven a .scalar n w = ([], .idle (.raised .typeError), w) := by
  refine ⟨fun o => ?_, ?_, rfl⟩
  · simp only [optimizeGiven, optimizeGiven.go, optimizeRun]
    rw [show [some o] = [o].map some from rfl, makeChecked_some]
    rcases makeConstraints [o] w with ⟨w', e | ks⟩ <;> rfl
  · simp only [optimizeGiven, optimizeGiven.go, optimizeRun]
    rw [makeChecked_some]
    rcases makeConstraints os w with ⟨w', e | ks⟩ <;> rfl

theorem makeChecked_none (os : List Objective) (rest : List (Option Objective)) (w : World) (hi : NameInv w.model.vars) :
    ∃ w', makeChecked (os.map some ++ Option.none :: rest) w = (w', .error .valueError) ∧ (makeConstraints os w).1 = w' := by
  induction os generalizing w with
  | nil => exact ⟨w, rfl, rfl⟩
  | cons o os ih =>
    obtain ⟨k, w1, hk, m1⟩ := makeConstraint_spec o w hi
    obtain ⟨w', h1, h2⟩ := ih w1 m1.inv
    refine ⟨w', ?_, ?_⟩
    · simp only [List.map_cons, List.cons_append, makeChecked, Api.bind_apply, hk, h1]
    · simp only [makeConstraints, Api.bind_apply, hk]
      obtain ⟨ks, w2, hks, _⟩ := makeConstraints_spec os w1 m1.inv
      rw [hks] at h2 ⊢
      exact h2

/-- Something that is no objective in the collection: `ValueError`, nothing is solved. The model keeps its variables, domains and constraints, but the parameters
made for the objectives before it stay in it, two for each. -/
theorem C75_not_an_objective (a : SolveArgs) (os : List Objective) (rest : List (Option Objective)) (n : Nat) (w : World) (hi : NameInv w.model.vars) :
    ∃ w', optimizeGiven a (.items (os.map some ++ Option.none :: rest)) n w = ([], .idle (.raised .valueError), w') ∧
      w'.model.constraints = w.model.constraints ∧ w'.model.solvable = w.model.solvable ∧
      (∀ i < w.heap.nparams, w'.heap.params i = w.heap.params i) ∧
      ∃ extra, w'.model.vars = w.model.vars ++ extra ∧ (∀ p ∈ extra, p.2.domain = none) ∧ (∀ p ∈ extra, p.1 ∉ w.model.vars.keys) ∧
        extra.length = 2 * os.length := by
  obtain ⟨w', h1, h2⟩ := makeChecked_none os rest w hi
  obtain ⟨ks, w2, hks, hm⟩ := makeConstraints_spec os w hi
  rw [hks] at h2
  subst h2
  obtain ⟨extra, e1, e2, e3⟩ := hm.vars
  refine ⟨w2, ?_, hm.cons, hm.solvable, hm.params, extra, e1, e2, e3, ?_⟩
  · simp only [optimizeGiven, optimizeGiven.go, h1]
  · have : ∀ (os : List Objective) (w w2 : World) (ks : List ObjCon), NameInv w.model.vars → makeConstraints os w = (w2, .ok ks) →
        w2.model.vars.length = w.model.vars.length + 2 * os.length := by
      intro os
      induction os with
      | nil => intro w w2 ks _ h; cases h; rfl
      | cons o os ih =>
        intro w w2 ks hi h
        obtain ⟨k, w1, hk, m1⟩ := makeConstraint_spec o w hi
        obtain ⟨ks', w3, hks', _⟩ := makeConstraints_spec os w1 m1.inv
        simp only [makeConstraints, Api.bind_apply, hk, hks'] at h
        cases h
        obtain ⟨x, y, hv, _⟩ := m1.vars
        rw [ih w1 w2 ks' m1.inv hks', hv]
        simp
        omega
    have := this os w w2 ks hi hks
    rw [e1] at this
    simpa using this

/-! ## The full claim is false of the code -/

/-- The solver made without arguments. -/
def plainSolver : SolverObj := ⟨.policy .groups, .none, .none, true⟩

theorem plainSolver_is : SolverObj.init [] = .ok plainSolver ∧ Is plainSolver {} := ⟨rfl, rfl, .none, .none, rfl⟩

/-- A misspelled keyword is not noticed. -/
theorem C75_refuted_keyword : ¬ C75 := by
  intro h
  rcases h.2 plainSolver {} [("tiemout", .num 1)] {} world57.model world57.heap plainSolver_is.2 (fun _ => .refl _) with h1 | ⟨s, hm, _⟩
  · have := (h1 6).1
    revert this
    decide
  · have := hm.names "tiemout" (by decide)
    revert this
    decide

/-- A wrong policy is not noticed. -/
theorem C75_refuted_policy : ¬ C75 := by
  intro h
  rcases h.2 plainSolver {} [("var_selection_policy", .other true)] {} world57.model world57.heap plainSolver_is.2 (fun _ => .refl _) with h1 | ⟨s, hm, _⟩
  · have := (h1 6).1
    revert this
    decide
  · rcases hm.policy with ⟨v, hv, hp⟩ | ⟨hv, _⟩
    · have : v = .other true := by simpa [Dict.get?] using hv.symm
      rw [this] at hp; cases hp
    · revert hv; decide

/-- `compile_constraints=False` in a call is not noticed: `(x == 1 | y == 1) & x == y` still means something else (C25). -/
theorem C75_refuted_compile :
    let c : Constraint := ⟨0, .expr (.bin .and (.bin .or (.bin .eq (.var "x") (.const 1)) (.bin .eq (.var "y") (.const 1)))
      (.bin .eq (.var "x") (.var "y")))⟩
    let m : Model := { exModel with constraints := [c] }
    (plainSolver.solve [("compile_constraints", .num 0)] {} m passive 30 exHeap).1.length = 3 ∧
    ((plainSolver.after (.compile (.num 0))).solve [] {} m passive 30 exHeap).1.length = 1 := by decide

/-- A wrong timeout is not noticed by the constructor. -/
theorem C75_refuted_timeout : ¬ C75 := by
  intro h
  rcases h.1 [("timeout", .other true)] with ⟨e, he⟩ | ⟨o, s, ho, hm, hi⟩
  · cases he
  · cases ho
    have := hi.timeout
    cases this

-- the hypotheses of the theorems above
example : Is plainSolver {} ∧ UsedAsGiven {} [("limit", .num 2), ("var_selection_policy", .policy .reversed)] { policy := .reversed, limit := some 2 } :=
  ⟨plainSolver_is.2, by decide, .inl ⟨_, rfl, rfl⟩, .inr ⟨rfl, rfl⟩, .inl ⟨_, rfl, .num 2⟩, .inr ⟨rfl, rfl⟩⟩
example : (optimizeGiven { solver := {} } (.items [some minX, Option.none]) 5 world1).2.2.model.vars.keys = ["x", "_p1", "_p2"] := by decide

end Satisfy.Props
