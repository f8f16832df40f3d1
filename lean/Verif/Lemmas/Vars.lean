import Verif.Lemmas.Expr
/-! Helper lemmas about `vars`. -/

namespace Satisfy

theorem mem_dedupInto {α} [DecidableEq α] (acc l : List α) (x : α) :
    x ∈ dedupInto acc l ↔ x ∈ acc ∨ x ∈ l := by
  induction l generalizing acc with
  | nil => simp [dedupInto]
  | cons y l ih =>
    unfold dedupInto
    split
    · rename_i h; rw [ih]; constructor
      · rintro (h | h) <;> simp [h]
      · rintro (h' | h')
        · exact .inl h'
        · rcases List.mem_cons.1 h' with rfl | h'
          · exact .inl h
          · exact .inr h'
    · rw [ih]; simp [or_assoc]

theorem nodup_dedupInto {α} [DecidableEq α] (acc l : List α) (h : acc.Nodup) : (dedupInto acc l).Nodup := by
  induction l generalizing acc with
  | nil => simpa [dedupInto]
  | cons y l ih =>
    unfold dedupInto
    split
    · exact ih _ h
    · rename_i hy
      apply ih
      rw [List.nodup_append]
      refine ⟨h, by simp, ?_⟩
      intro a ha b hb hab
      simp at hb; subst hb; subst hab; exact hy ha

@[simp] theorem mem_dedup {α} [DecidableEq α] (l : List α) (x : α) : x ∈ dedup l ↔ x ∈ l := by
  simp [dedup, mem_dedupInto]

theorem nodup_dedup {α} [DecidableEq α] (l : List α) : (dedup l).Nodup := nodup_dedupInto _ _ (by simp)

theorem mem_varsInto (vl : List Name) (es : List Expr) (x : Name) :
    x ∈ Expr.varsInto vl es ↔ x ∈ vl ∨ ∃ e ∈ es, x ∈ e.vars := by
  induction es generalizing vl with
  | nil => simp [Expr.varsInto]
  | cons e es ih => rw [Expr.varsInto, ih, mem_dedupInto]; simp [or_assoc]

theorem nodup_varsInto (vl : List Name) (es : List Expr) (h : vl.Nodup) : (Expr.varsInto vl es).Nodup := by
  induction es generalizing vl with
  | nil => simpa [Expr.varsInto]
  | cons e es ih => rw [Expr.varsInto]; exact ih _ (nodup_dedupInto _ _ h)

@[simp] theorem mem_vars_un {op : UOp} {e : Expr} {x : Name} : x ∈ (Expr.un op e).vars ↔ x ∈ e.vars := by
  simp [Expr.vars, mem_dedupInto]
@[simp] theorem mem_vars_bin {op : BOp} {l r : Expr} {x : Name} :
    x ∈ (Expr.bin op l r).vars ↔ x ∈ l.vars ∨ x ∈ r.vars := by
  simp [Expr.vars, mem_dedupInto]
@[simp] theorem mem_vars_acc {k : AccKind} {c : Int} {es : List Expr} {x : Name} :
    x ∈ (Expr.acc k c es).vars ↔ ∃ e ∈ es, x ∈ e.vars := by
  simp [Expr.vars, mem_varsInto]

theorem nodup_vars (e : Expr) : e.vars.Nodup := by
  cases e <;> simp [Expr.vars]
  · exact nodup_dedupInto _ _ (by simp)
  · exact nodup_dedupInto _ _ (nodup_dedupInto _ _ (by simp))
  · exact nodup_varsInto _ _ (by simp)

/-- Induction principle for expressions with lists of operands. -/
theorem Expr.induct {P : Expr → Prop}
    (hc : ∀ v, P (.const v)) (hv : ∀ x, P (.var x)) (hp : ∀ i n, P (.param i n))
    (hu : ∀ op e, P e → P (.un op e)) (hb : ∀ op l r, P l → P r → P (.bin op l r))
    (ha : ∀ k c es, (∀ e ∈ es, P e) → P (.acc k c es)) : ∀ e, P e
  | .const v => hc v
  | .var x => hv x
  | .param i n => hp i n
  | .un op e => hu op e (Expr.induct hc hv hp hu hb ha e)
  | .bin op l r => hb op l r (Expr.induct hc hv hp hu hb ha l) (Expr.induct hc hv hp hu hb ha r)
  | .acc k c es => ha k c es (fun e _ => Expr.induct hc hv hp hu hb ha e)

/-- Two substitutions that agree on the variables give the same result, exceptions included. -/
theorem eval_congr (ρ : Store) (σ σ' : Subst) (e : Expr)
    (h : ∀ x ∈ e.vars, σ.get? x = σ'.get? x) : e.eval ρ σ = e.eval ρ σ' := by
  induction e using Expr.induct with
  | hc v => simp [Expr.eval]
  | hv x => simp [Expr.eval, h x (by simp [Expr.vars])]
  | hp i n => simp [Expr.eval]
  | hu op e ih => rw [Expr.eval, Expr.eval, ih (fun x hx => h x (by simpa using hx))]
  | hb op l r ihl ihr =>
    rw [Expr.eval, Expr.eval, ihl (fun x hx => h x (by simp [hx])), ihr (fun x hx => h x (by simp [hx]))]
  | ha k c es ih =>
    rw [Expr.eval, Expr.eval]
    have : ∀ e ∈ es, e.eval ρ σ = e.eval ρ σ' := fun e he => ih e he (fun x hx => h x (by simp; exact ⟨e, he, hx⟩))
    clear ih h
    induction es generalizing c with
    | nil => simp [Expr.evalAcc]
    | cons e es ih =>
      rw [Expr.evalAcc, Expr.evalAcc, this e (by simp)]
      congr; funext v; exact ih _ (fun e he => this e (by simp [he]))

theorem eval_ok_bound {ρ : Store} {σ : Subst} {e : Expr} {v : Int} (h : e.eval ρ σ = .ok v) :
    ∀ x ∈ e.vars, ∃ w, σ.get? x = some w := by
  induction e using Expr.induct generalizing v with
  | hc v => simp [Expr.vars]
  | hv x =>
    intro y hy; simp [Expr.vars] at hy; subst hy
    rw [Expr.eval] at h
    cases hg : σ.get? y with
    | none => simp [hg] at h
    | some w => exact ⟨w, rfl⟩
  | hp i n => simp [Expr.vars]
  | hu op e ih =>
    rw [Expr.eval, bind_eq_ok] at h; obtain ⟨a, h1, _⟩ := h
    intro x hx; exact ih h1 x (by simpa using hx)
  | hb op l r ihl ihr =>
    obtain ⟨a, b, h1, h2, _⟩ := bin_ok_iff.1 h
    intro x hx
    rcases mem_vars_bin.1 hx with hx | hx
    exacts [ihl h1 x hx, ihr h2 x hx]
  | ha k c es ih =>
    have := (acc_ok_iff.1 h).1
    intro x hx
    obtain ⟨e, he, hx⟩ := mem_vars_acc.1 hx
    exact ih e he (this e he) x hx

theorem op_not_undefined (op : BOp) (a b : Int) (x : Name) : op.op a b ≠ .error (.undefinedVar x) := by
  cases op <;> simp [BOp.op, pyFloorDiv, pyMod, pyPow] <;> (repeat' split) <;> simp

theorem eval_undefined {ρ : Store} {σ : Subst} {e : Expr} {x : Name}
    (h : e.eval ρ σ = .error (.undefinedVar x)) : x ∈ e.vars ∧ σ.get? x = none := by
  have bind_err : ∀ {α β : Type} {r : Res α} {f : α → Res β} {er : Err}, (r >>= f) = .error er →
      r = .error er ∨ ∃ a, r = .ok a ∧ f a = .error er := by
    intro α β r f er h; cases r with
    | error e' => left; simpa using h
    | ok a => right; exact ⟨a, rfl, h⟩
  induction e using Expr.induct with
  | hc v => simp [Expr.eval] at h
  | hv y =>
    rw [Expr.eval] at h
    cases hg : σ.get? y with
    | none => simp [hg] at h; subst h; exact ⟨by simp [Expr.vars], hg⟩
    | some w => simp [hg] at h
  | hp i n => simp [Expr.eval] at h
  | hu op e ih =>
    rw [Expr.eval] at h
    rcases bind_err h with h | ⟨a, _, h⟩
    · have := ih h; exact ⟨by simpa using this.1, this.2⟩
    · simp at h
  | hb op l r ihl ihr =>
    rw [Expr.eval] at h
    rcases bind_err h with h | ⟨a, _, h⟩
    · have := ihl h; exact ⟨by simp [this.1], this.2⟩
    · rcases bind_err h with h | ⟨b, _, h⟩
      · have := ihr h; exact ⟨by simp [this.1], this.2⟩
      · exact absurd h (op_not_undefined _ _ _ _)
  | ha k c es ih =>
    rw [Expr.eval] at h
    have : ∃ e ∈ es, e.eval ρ σ = .error (.undefinedVar x) := by
      clear ih
      induction es generalizing c with
      | nil => simp [Expr.evalAcc] at h
      | cons e es ih =>
        rw [Expr.evalAcc] at h
        rcases bind_err h with h | ⟨a, _, h⟩
        · exact ⟨e, by simp, h⟩
        · obtain ⟨e', he', h'⟩ := ih _ h; exact ⟨e', by simp [he'], h'⟩
    obtain ⟨e, he, h'⟩ := this
    have := ih e he h'
    exact ⟨mem_vars_acc.2 ⟨e, he, this.1⟩, this.2⟩

/-! ### Variables of built expressions -/

theorem ex_mono {x : Name} {a : Expr} {es elist : List Expr} (h : ∃ e ∈ es ++ elist, x ∈ e.vars) :
    ∃ e ∈ a :: es ++ elist, x ∈ e.vars := by
  obtain ⟨e, he, hx⟩ := h; exact ⟨e, by simp at he ⊢; tauto, hx⟩

theorem ex_snoc {x : Name} {a : Expr} {es elist : List Expr} (h : ∃ e ∈ es ++ (elist ++ [a]), x ∈ e.vars) :
    ∃ e ∈ a :: es ++ elist, x ∈ e.vars := by
  obtain ⟨e, he, hx⟩ := h; exact ⟨e, by simp at he ⊢; tauto, hx⟩

theorem ex_flat {x : Name} {k : AccKind} {c' : Int} {es' es elist : List Expr}
    (h : ∃ e ∈ es ++ (elist ++ es'), x ∈ e.vars) :
    ∃ e ∈ Expr.acc k c' es' :: es ++ elist, x ∈ e.vars := by
  obtain ⟨e, he, hx⟩ := h
  simp only [List.mem_append] at he
  rcases he with he | he | he
  · exact ⟨e, by simp [he], hx⟩
  · exact ⟨e, by simp [he], hx⟩
  · exact ⟨Expr.acc k c' es', by simp, mem_vars_acc.2 ⟨e, he, hx⟩⟩

theorem accInit_vars (k : AccKind) (es : List Expr) (c : Int) (elist : List Expr) (x : Name)
    (h : ∃ e ∈ (accInit k es c elist).2, x ∈ e.vars) : ∃ e ∈ es ++ elist, x ∈ e.vars := by
  fun_induction accInit k es c elist with
  | case1 c elist => simpa using h
  | case2 _ _ _ ih => exact ex_mono (ih h)
  | case3 => simp at h
  | case4 _ _ _ _ _ _ ih => exact ex_mono (ih h)
  | case5 _ _ _ _ _ ih => exact ex_mono (ih h)
  | case6 => simp at h
  | case7 _ _ _ _ _ _ _ ih => exact ex_flat (ih h)
  | case8 _ _ _ _ _ _ _ _ ih => exact ex_snoc (ih h)
  | case9 _ _ _ _ _ _ _ ih => exact ex_snoc (ih h)

theorem accLoop_vars (k : AccKind) (es : List Expr) (c : Int) (elist : List Expr) (x : Name)
    (h : ∃ e ∈ (accLoop k es c elist).2, x ∈ e.vars) : ∃ e ∈ es ++ elist, x ∈ e.vars := by
  fun_induction accLoop k es c elist with
  | case1 c elist => simpa using h
  | case2 _ _ _ ih => exact ex_mono (ih h)
  | case3 => simp at h
  | case4 => simp at h
  | case5 _ _ _ _ _ _ _ ih => exact ex_mono (ih h)
  | case6 _ _ _ _ _ _ ih => exact ex_mono (ih h)
  | case7 => simp at h
  | case8 _ _ _ _ _ _ _ _ ih => exact ex_flat (ih h)
  | case9 _ _ _ _ _ _ _ ih => exact ex_flat (ih h)
  | case10 _ _ _ _ _ _ _ ih => exact ex_snoc (ih h)
  | case11 _ _ _ _ _ _ ih => exact ex_snoc (ih h)

theorem expand_vars (k : AccKind) (o : Obj) (x : Name) (h : ∃ e ∈ expandOperand k o, x ∈ e.vars) :
    x ∈ (coerce o).vars := by
  unfold expandOperand at h
  split at h
  · split at h
    · simpa [coerce] using h
    · simpa [coerce] using h
  · simpa using h

theorem makeAcc_vars (k : AccKind) (l r : Obj) (x : Name) (h : x ∈ (makeAcc k l r).vars) :
    x ∈ (coerce l).vars ∨ x ∈ (coerce r).vars := by
  have H : (∃ e ∈ (accLoop k (expandOperand k l ++ expandOperand k r) k.neutral []).2, x ∈ e.vars) →
      x ∈ (coerce l).vars ∨ x ∈ (coerce r).vars := by
    intro h'
    obtain ⟨e, he, hx⟩ := accLoop_vars _ _ _ _ _ h'
    simp only [List.append_nil, List.mem_append] at he
    rcases he with he | he
    · exact .inl (expand_vars k l x ⟨e, he, hx⟩)
    · exact .inr (expand_vars k r x ⟨e, he, hx⟩)
  apply H
  unfold makeAcc at h
  generalize accLoop k (expandOperand k l ++ expandOperand k r) k.neutral [] = p at h
  obtain ⟨c, el⟩ := p
  dsimp only at h ⊢
  have mk : ∀ {es : List Expr} {c}, x ∈ (mkAcc k es c).vars → ∃ e ∈ es, x ∈ e.vars := by
    intro es c hx
    simpa using accInit_vars k es c [] x (mem_vars_acc.1 hx)
  split at h
  · simp [Expr.vars] at h
  · split at h
    · simpa using h
    · simpa [Expr.vars, mem_dedupInto] using h
  · split at h
    · simpa using h
    · exact mk h
  · split at h <;> exact mk h

end Satisfy
