import Verif.Props.OptimizeRaise
import Verif.Lemmas.Arith
/-! Optimising models built by a program. -/

namespace Satisfy
open Props

/-- The constraints of the model mean the same during and after `optimize` as in `solve`. -/
theorem opt_final {a : SolveArgs} {os : List Objective} {w : World} (hok : OptOk a os w) (n : Nat)
    (hgo : (optimizeRun a os n w).1 ≠ [] ∨ ((optimizeRun a os n w).2.1.phase = .finished ∧ w.model.solvable = true ∧ ∃ x, (w.model.domain? x).isSome)) :
    ∀ c ∈ w.model.constraints ++ a.adds, ∀ σ, c.evaluate (optimizeRun a os n w).2.2.heap σ =
      c.evaluate (compileAll a.solver.compile (w.model.constraints ++ a.adds) w.heap) σ := by
  obtain ⟨ks, w', hmk, hm⟩ := makeConstraints_spec os w hok.names
  have hok' := made_solveOk hok hm
  have hst := opt_steady (a := a) hm n
  rw [optimizeRun_eq hmk] at hgo ⊢
  simp only at hgo ⊢
  intro c hc σ
  rw [← opt_evaluate hok hm hc, ← steady_evaluate hst (hok.old c hc)]
  cases startCase (a := a.withObjectives ks) w'.model w'.heap hok'.shuffle with
  | idle h1 h2 =>
    rw [solveRun_idle (ph := .finished) trivial h1] at hgo
    rcases hgo with h | ⟨_, hsol, x, hx⟩
    · exact absurd rfl h
    · rcases h2 with h2 | h2
      · rw [hm.solvable, hsol] at h2; cases h2
      · rw [made_pureVars hm] at h2
        rw [← pureVars_get? hok.solve.wf.names] at hx
        obtain ⟨v, hv⟩ := Option.isSome_iff_exists.1 hx
        have := Dict.mem_keys_of_get? hv
        rw [h2] at this; simp at this
  | fail e h1 _ _ =>
    rw [solveRun_idle (ph := .raised e) trivial h1] at hgo
    rcases hgo with h | ⟨h, _⟩
    · exact absurd rfl h
    · simp [Gen.idle] at h
  | go H info hsol hset hst _ _ =>
    rw [hst]
    simp only
    rw [(setup_spec hok'.ids hset).1]
    rfl

section
variable {ρ : Store} {w : World} {vs : Dict (List Int)} {C : Subst → Prop} {a : SolveArgs} {os : List Objective}

theorem BuiltC.optOk (hb : Built ρ w vs C) (hs : ∀ l, (a.shuffle l).Perm l) (ha : a.adds = []) (ho : ∀ o ∈ os, ∀ i, i ∉ o.expr.params) :
    OptOk a os w := by
  refine ⟨hb.ok hs ha, hb.inv, ?_, fun o hoo i hi => absurd hi (ho o hoo i)⟩
  rw [ha, List.append_nil]
  intro c hc
  refine ⟨hb.ids.lt c hc, fun e he i hi => ?_⟩
  rw [(hb.safe c hc e he).2.2] at hi; simp at hi

/-- Whatever is handed out is a solution. -/
theorem BuiltC.optSound (hb : Built ρ w vs C) (hs : ∀ l, (a.shuffle l).Perm l) (ha : a.adds = []) (ho : ∀ o ∈ os, ∀ i, i ∉ o.expr.params)
    (n : Nat) : ∀ τ ∈ (optimizeRun a os n w).1, Exact vs τ ∧ C τ := by
  intro τ hτ
  have hok := hb.optOk hs ha ho
  by_cases hsol : w.model.solvable = true
  · obtain ⟨h1, h2⟩ := C28_sound hok (by rw [ha, List.append_nil]; exact hb.over hsol) n τ hτ
    have hex := hb.assignment.1 h1
    refine ⟨hex, (hb.sem τ hex.on).1 ⟨hsol, fun c hc => ?_⟩⟩
    have hc' : c ∈ w.model.constraints ++ a.adds := by simp [hc]
    rw [← hb.params]
    refine meaning_of_holds hok.solve.ids hc' (hb.plain ha c hc') ?_ (fun _ e he => ?_)
    · obtain ⟨r, hr, h0⟩ := h2 c hc'
      refine ⟨r, ?_, h0⟩
      rw [← opt_final hok n (.inl (List.ne_nil_of_mem hτ)) c hc']; exact hr
    · refine (hb.safe c hc e he).2.1 _ _ (fun x hx => ?_)
      have : x ∈ τ.keys := by
        rw [h1.keys]; exact (hb.over hsol c hc).2 x (by simp [Constraint.vars, he, CKind.vars, hx])
      obtain ⟨v, hv⟩ := Dict.get?_isSome_of_mem_keys this
      simp [hv]
  · obtain ⟨ks, w', hmk, hm⟩ := makeConstraints_spec os w hok.names
    rw [optimizeRun_eq hmk] at hτ
    have h1 : (startSolve (a.withObjectives ks) w'.model w'.heap).2.2 = Gen.idle .finished := by
      simp only [startSolve, hm.solvable]
      simp [hsol]
    simp only at hτ
    rw [solveRun_idle (ph := .finished) trivial h1] at hτ; simp at hτ

/-- The solutions of the specification are solutions in the sense of the optimisation theorems. -/
theorem BuiltC.isSolution (hb : Built ρ w vs C) (hs : ∀ l, (a.shuffle l).Perm l) (ha : a.adds = []) (ho : ∀ o ∈ os, ∀ i, i ∉ o.expr.params)
    (hne : vs ≠ []) (n : Nat) (hend : (optimizeRun a os n w).2.1.phase = .finished) (τ : Subst) (hτ : Exact vs τ) (hC : C τ) :
    w.model.solvable = true ∧ IsSolution w.model (w.model.constraints ++ a.adds) (optimizeRun a os n w).2.2.heap τ := by
  obtain ⟨hsol, hm⟩ := (hb.sem τ hτ.on).2 hC
  have hok := hb.optOk hs ha ho
  refine ⟨hsol, hb.assignment.2 hτ, fun c hc => ?_⟩
  obtain ⟨r, hr, h0⟩ := holds_of_meaning (comp := a.solver.compile) hok.solve.ids hc (hb.plain ha c hc) (σ := τ)
    (by rw [hb.params]; exact hm c (by simpa [ha] using hc))
  refine ⟨r, ?_, h0⟩
  rw [opt_final hok n (.inr ⟨hend, hsol, ?_⟩) c hc]; exact hr
  cases vs with
  | nil => exact absurd rfl hne
  | cons p vs => exact ⟨p.1, by rw [hb.domain]; simp [Dict.get?]⟩

theorem BuiltC.vars_some (hb : Built ρ w vs C) (hne : vs ≠ []) : ∃ x, (w.model.domain? x).isSome := by
  cases vs with
  | nil => exact absurd rfl hne
  | cons p vs => exact ⟨p.1, by rw [hb.domain]; simp [Dict.get?]⟩

end

/-- An objective with a value. -/
structure Goal (vs : Dict (List Int)) (o : Objective) (f : (Name → Int) → Int) : Prop where
  den : ∃ xs, Den xs (.expr o.expr) f ∧ (∀ x ∈ xs, x ∈ vs.keys) ∧ ∀ x ∈ xs, NameOk x

section
variable {ρ : Store} {w : World} {vs : Dict (List Int)} {C : Subst → Prop} {a : SolveArgs} {o : Objective} {f : (Name → Int) → Int}

theorem Goal.params (h : Goal vs o f) : ∀ o' ∈ [o], ∀ i, i ∉ o'.expr.params := by
  obtain ⟨xs, hd, _⟩ := h.den
  intro o' ho
  simp at ho; subst ho
  exact hd.params

theorem Goal.safe (h : Goal vs o f) (ρ : Store) : o.Safe ρ := by
  obtain ⟨xs, hd, _, hn⟩ := h.den
  obtain ⟨L, hL, h8⟩ := nice_lvl (ρ := ρ) hd.nice
  exact ⟨⟨L, hL, by omega⟩, fun x hx => hn x (hd.vars x hx)⟩

theorem Goal.vars (h : Goal vs o f) : ∀ x ∈ o.expr.vars, x ∈ vs.keys := by
  obtain ⟨xs, hd, hk, _⟩ := h.den
  exact fun x hx => hk x (hd.vars x hx)

/-- The objective's value, as soon as its own variables are bound. -/
theorem Goal.eval (h : Goal vs o f) (ρ : Store) {σ : Subst} (hb : ∀ x ∈ o.expr.vars, Dict.get? σ x ≠ none) :
    o.expr.eval ρ σ = .ok (f (val σ)) := by
  obtain ⟨xs, hd, hk, _⟩ := h.den
  have h1 := hd.eval ρ (σ ++ xs.map (fun x => (x, (0 : Int)))) (by
    intro x hx
    rw [Dict.get?_append]
    have : ∃ v, Dict.get? (xs.map (fun x => (x, (0 : Int)))) x = some v :=
      Dict.get?_isSome_of_mem_keys (by simp [Dict.keys, Function.comp_def, hx])
    obtain ⟨v, hv⟩ := this
    cases Dict.get? σ x <;> simp [hv])
  rw [val_append_zero] at h1
  rw [← h1, Obj.eval]
  apply eval_congr
  intro x hx
  rw [Dict.get?_append]
  cases hg : Dict.get? σ x with
  | none => exact absurd hg (hb x hx)
  | some v => rfl

theorem Goal.evalExact (h : Goal vs o f) (ρ : Store) {σ : Subst} (hσ : Exact vs σ) : o.expr.eval ρ σ = .ok (f (val σ)) := by
  refine h.eval ρ (fun x hx => ?_)
  obtain ⟨v, hv⟩ := Dict.get?_isSome_of_mem_keys ((hσ.keys x).2 (h.vars x hx))
  rw [hv]; simp

/-- `optimal_solution` returns. -/
theorem BuiltC.optReturns (hb : Built ρ w vs C) (hs : ∀ l, (a.shuffle l).Perm l) (ha : a.adds = []) (hg : Goal vs o f) :
    ∃ r N, ∀ n ≥ N, optimalSolution (optimizeRun a [o] n w) = some (.ok r) := by
  by_cases hsol : w.model.solvable = true
  · refine C29_returns (hb.optOk hs ha hg.params) (fun _ o' ho => by simp at ho; subst ho; exact hg.safe _) (fun e h => ?_)
    cases h with
    | solve h => exact hb.no_cause hsol ha e h
    | objective o' σ e' ho _ hbd he =>
      simp at ho; subst ho
      rw [hg.eval w.heap.params (fun x hx => hbd x hx (by
        rw [hb.domain]
        obtain ⟨d, hd⟩ := Dict.get?_isSome_of_mem_keys (hg.vars x hx)
        simp [hd]))] at he
      cases he
  · have hok := hb.optOk (os := [o]) hs ha hg.params
    obtain ⟨ks, w', hmk, hm⟩ := makeConstraints_spec [o] w hok.names
    have h1 : (startSolve (a.withObjectives ks) w'.model w'.heap).2.2 = Gen.idle .finished := by
      simp only [startSolve, hm.solvable]
      simp [hsol]
    refine ⟨⟨false, none⟩, 0, fun n _ => ?_⟩
    rw [optimizeRun_eq hmk, solveRun_idle (ph := .finished) trivial h1]
    rfl

/-- What `optimal_solution` returns when it was not interrupted. -/
theorem BuiltC.optNone (hb : Built ρ w vs C) (hs : ∀ l, (a.shuffle l).Perm l) (ha : a.adds = []) (hg : Goal vs o f) (hne : vs ≠ []) (n : Nat)
    (r : OptSolution) (hr : optimalSolution (optimizeRun a [o] n w) = some (.ok r)) (hint : (optimizeRun a [o] n w).2.1.interrupt = none)
    (hnone : r.solution = none) (τ : Subst) (hτ : Exact vs τ) : ¬ C τ := by
  intro hC
  have hok := hb.optOk (os := [o]) hs ha hg.params
  have hend : (optimizeRun a [o] n w).2.1.phase = .finished := by
    unfold optimalSolution at hr; split at hr
    · assumption
    · simp at hr
    · simp at hr
  obtain ⟨hsol, hiss⟩ := hb.isSolution hs ha hg.params hne n hend τ hτ hC
  have := (C29_solution hok hsol (hb.vars_some hne) (by rw [ha, List.append_nil]; exact hb.over hsol)
    (fun _ o' ho => by simp at ho; subst ho; exact hg.safe _)
    (by
      intro o' ho τ hτ
      simp at ho; subst ho
      exact ⟨_, hg.evalExact _ (hb.assignment.1 hτ)⟩) n r hr hint).1 hnone
  exact this ⟨τ, hiss⟩

theorem Goal.valued (hg : Goal vs o f) (m : Model) (ρ : Store) : o.Valued m ρ := by
  intro σ h
  exact ⟨_, hg.eval _ (fun x hx => by obtain ⟨_, v, _, _, hv⟩ := h x hx; rw [show Dict.get? σ x = σ.get? x from rfl, hv]; simp)⟩

end

end Satisfy
