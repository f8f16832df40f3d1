import Verif.Lemmas.Optimize
/-! The constraint an objective adds. -/

namespace Satisfy

/-- The two shapes: Python reflects a comparison of a `Variable` with a `Parameter`. -/
theorem boundExpr_cases (o : Objective) (p q : Nat) (x y : Name) :
    (∃ z, o.expr = .var z ∧ boundExpr o (.param p x) (.param q y) =
      .bin .or (.param p x) (.bin o.cmp.swap.bop (.param q y) (.var z))) ∨
    boundExpr o (.param p x) (.param q y) = .bin .or (.param p x) (.bin o.cmp.bop o.expr (.param q y)) := by
  unfold boundExpr
  cases h : o.expr with
  | var z => exact .inl ⟨z, rfl, rfl⟩
  | _ => exact .inr rfl

theorem cmp_op (c : Cmp) (a b : Int) : c.bop.op a b = .ok (ofBool (c.holds a b)) := by cases c <;> rfl
theorem cmp_swap (c : Cmp) (a b : Int) : c.swap.holds b a = c.holds a b := by
  cases c <;> simp [Cmp.swap, Cmp.holds, eq_comm]

theorem boundExpr_eval {ρ : Store} {σ : Subst} {o : Objective} {v : Int} (hv : o.expr.eval ρ σ = .ok v) (p q : Nat) (x y : Name) :
    (boundExpr o (.param p x) (.param q y)).eval ρ σ = .ok (pyOr (ρ p) (ofBool (o.cmp.holds v (ρ q)))) := by
  rcases boundExpr_cases o p q x y with ⟨z, hz, h⟩ | h
  · rw [hz] at hv
    rw [h]
    simp only [Expr.eval] at hv ⊢
    rw [hv]
    simp only [ok_bind, cmp_op, cmp_swap]
    rfl
  · rw [h]
    simp only [Expr.eval, hv, ok_bind, cmp_op]
    rfl

theorem mem_boundExpr_vars (o : Objective) (p q : Nat) (x y z : Name) :
    z ∈ (boundExpr o (.param p x) (.param q y)).vars ↔ z ∈ o.expr.vars := by
  rcases boundExpr_cases o p q x y with ⟨u, hu, h⟩ | h
  · rw [h, hu]; simp [Expr.vars, mem_dedupInto]
  · rw [h]; simp [Expr.vars, mem_dedupInto]

theorem boundExpr_vars_length (o : Objective) (p q : Nat) (x y : Name) :
    (boundExpr o (.param p x) (.param q y)).vars.length = o.expr.vars.length :=
  ((List.perm_ext_iff_of_nodup (nodup_vars _) (nodup_vars _)).2 (mem_boundExpr_vars o p q x y)).length_eq

theorem boundExpr_safe {ρ : Store} {o : Objective} (h : o.Safe ρ) (p q : Nat) (x y : Name) :
    (boundExpr o (.param p x) (.param q y)).Safe ρ := by
  obtain ⟨⟨l, hl, h4⟩, hn⟩ := h
  refine ⟨?_, fun z hz => hn z ((mem_boundExpr_vars o p q x y z).1 hz)⟩
  have hq := intLvl_pos (ρ q)
  have hcmp : ∀ c : Cmp, c.bop.need = (4, 4) ∧ c.bop ≠ .or := by intro c; cases c <;> decide
  have e1 := hcmp o.cmp
  have e2 := hcmp o.cmp.swap
  rcases boundExpr_cases o p q x y with ⟨u, hu, h⟩ | h
  · rw [h]
    have : (4 : Nat) ≤ intLvl (ρ q) := by omega
    simp [pyLvl, e2.1, e2.2, this]
  · rw [h]
    have : (4 : Nat) ≤ intLvl (ρ q) := by omega
    simp [pyLvl, hl, e1.1, e1.2, this, h4]

theorem objective_safe_params {ρ ρ' : Store} {o : Objective} (h : ∀ i ∈ o.expr.params, ρ i = ρ' i) : o.Safe ρ ↔ o.Safe ρ' := by
  unfold Objective.Safe; rw [pyLvl_params h]

/-- `not_set or value < bound`. -/
theorem pyOr_bound (o : Objective) (a v b : Int) :
    pyOr a (ofBool (o.cmp.holds v b)) ≠ 0 ↔ (a = 0 → ¬ o.le b v) := by
  unfold pyOr Objective.cmp Objective.le
  cases o.maximize <;> simp [Cmp.holds, ofBool, truthy] <;> by_cases ha : a = 0 <;> simp [ha]

end Satisfy
