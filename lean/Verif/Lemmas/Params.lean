import Verif.SpecOptimize
import Verif.Lemmas.Setup
/-! Only the parameters an expression mentions matter. -/

namespace Satisfy

theorem mem_paramsList {es : List Expr} {i : Nat} : i ∈ Expr.paramsList es ↔ ∃ e ∈ es, i ∈ e.params := by
  induction es with
  | nil => simp [Expr.paramsList]
  | cons e es ih => simp [Expr.paramsList, ih]

theorem eval_params {ρ ρ' : Store} {e : Expr} (h : ∀ i ∈ e.params, ρ i = ρ' i) (σ : Subst) : e.eval ρ σ = e.eval ρ' σ := by
  induction e using Expr.induct with
  | hc v => simp [Expr.eval]
  | hv x => simp [Expr.eval]
  | hp i n => simp [Expr.eval, h i (by simp [Expr.params])]
  | hu op e ih => rw [Expr.eval, Expr.eval, ih (fun i hi => h i (by simpa [Expr.params] using hi))]
  | hb op l r ihl ihr =>
    rw [Expr.eval, Expr.eval, ihl (fun i hi => h i (by simp [Expr.params, hi])), ihr (fun i hi => h i (by simp [Expr.params, hi]))]
  | ha k c es ih =>
    rw [Expr.eval, Expr.eval]
    have : ∀ e ∈ es, e.eval ρ σ = e.eval ρ' σ := fun e he => ih e he (fun i hi => h i (by
      simp only [Expr.params]; exact mem_paramsList.2 ⟨e, he, hi⟩))
    clear ih h
    induction es generalizing c with
    | nil => simp [Expr.evalAcc]
    | cons e es ih =>
      rw [Expr.evalAcc, Expr.evalAcc, this e (by simp)]
      congr; funext v; exact ih _ (fun e he => this e (by simp [he]))

theorem pyToks_params {ρ ρ' : Store} {e : Expr} (h : ∀ i ∈ e.params, ρ i = ρ' i) : e.pyToks ρ = e.pyToks ρ' := by
  induction e using Expr.induct with
  | hc v => simp [Expr.pyToks]
  | hv x => simp [Expr.pyToks]
  | hp i n => simp [Expr.pyToks, h i (by simp [Expr.params])]
  | hu op e ih =>
    have := ih (fun i hi => h i (by simpa [Expr.params] using hi))
    cases op <;> simp [Expr.pyToks, this]
  | hb op l r ihl ihr =>
    have h1 := ihl (fun i hi => h i (by simp [Expr.params, hi]))
    have h2 := ihr (fun i hi => h i (by simp [Expr.params, hi]))
    cases op <;> simp [Expr.pyToks, h1, h2]
  | ha k c es ih =>
    have : ∀ e ∈ es, e.pyToks ρ = e.pyToks ρ' := fun e he => ih e he (fun i hi => h i (by
      simp only [Expr.params]; exact mem_paramsList.2 ⟨e, he, hi⟩))
    clear ih h
    rw [Expr.pyToks, Expr.pyToks]
    congr 1
    induction es with
    | nil => simp [Expr.pyToksList]
    | cons e es ih => rw [Expr.pyToksList, Expr.pyToksList, this e (by simp), ih (fun e he => this e (by simp [he]))]

theorem asFunction_params {ρ ρ' : Store} {e : Expr} (h : ∀ i ∈ e.params, ρ i = ρ' i) : asFunction ρ e = asFunction ρ' e := by
  unfold asFunction; rw [pyToks_params h]

theorem pyLvl_params {ρ ρ' : Store} {e : Expr} (h : ∀ i ∈ e.params, ρ i = ρ' i) : pyLvl ρ e = pyLvl ρ' e := by
  induction e using Expr.induct with
  | hc v => simp [pyLvl]
  | hv x => simp [pyLvl]
  | hp i n => simp [pyLvl, h i (by simp [Expr.params])]
  | hu op e ih =>
    have := ih (fun i hi => h i (by simpa [Expr.params] using hi))
    cases op <;> simp [pyLvl, this]
  | hb op l r ihl ihr =>
    have h1 := ihl (fun i hi => h i (by simp [Expr.params, hi]))
    have h2 := ihr (fun i hi => h i (by simp [Expr.params, hi]))
    simp [pyLvl, h1, h2]
  | ha k c es ih =>
    have : ∀ e ∈ es, pyLvl ρ e = pyLvl ρ' e := fun e he => ih e he (fun i hi => h i (by
      simp only [Expr.params]; exact mem_paramsList.2 ⟨e, he, hi⟩))
    clear ih h
    have hl : pyLvls ρ es = pyLvls ρ' es := by
      induction es with
      | nil => simp [pyLvls]
      | cons e es ih => rw [pyLvls, pyLvls, this e (by simp), ih (fun e he => this e (by simp [he]))]
    rw [pyLvl, pyLvl, hl]

theorem safe_params {ρ ρ' : Store} {e : Expr} (h : ∀ i ∈ e.params, ρ i = ρ' i) : e.Safe ρ ↔ e.Safe ρ' := by
  unfold Expr.Safe; rw [pyLvl_params h]

theorem evaluate_params {h h' : Heap} {c : Constraint} (hf : h.fns c.id = h'.fns c.id)
    (hp : ∀ e, c.kind = .expr e → ∀ i ∈ e.params, h.params i = h'.params i) (σ : Subst) : c.evaluate h σ = c.evaluate h' σ := by
  obtain ⟨i, k⟩ := c
  cases k with
  | const b => rfl
  | allDiff ns => rfl
  | expr e =>
    simp only [Constraint.evaluate]
    simp only at hf
    rw [hf]
    cases h'.fns i with
    | none => exact eval_params (hp e rfl) σ
    | some f => rfl

end Satisfy
