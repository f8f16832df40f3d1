import Verif.Expr
import Mathlib.Tactic.Ring
/-! Helper lemmas about expression evaluation and the simplifying constructors. -/

namespace Satisfy

section
variable (ρ : Store) (σ : Subst)

/-- The value of an expression where it is defined. -/
def Expr.val (e : Expr) : Int := match e.eval ρ σ with | .ok v => v | .error _ => 0

/-- All listed expressions evaluate. -/
def AllOk (es : List Expr) : Prop := ∀ e ∈ es, e.eval ρ σ = .ok (e.val ρ σ)

theorem val_of_ok {e : Expr} {v : Int} (h : e.eval ρ σ = .ok v) : e.val ρ σ = v := by
  simp [Expr.val, h]

theorem eval_ok_val {e : Expr} {v : Int} (h : e.eval ρ σ = .ok v) : e.eval ρ σ = .ok (e.val ρ σ) := by
  simp [Expr.val, h]

/-- Fold of the values. -/
def total (k : AccKind) (c : Int) (es : List Expr) : Int := es.foldl (fun a e => k.op a (e.val ρ σ)) c

variable {ρ σ}

theorem AccKind.op_assoc (k : AccKind) (a b c : Int) : k.op (k.op a b) c = k.op a (k.op b c) := by
  cases k <;> simp only [AccKind.op] <;> ring
theorem AccKind.op_comm (k : AccKind) (a b : Int) : k.op a b = k.op b a := by
  cases k <;> simp only [AccKind.op] <;> ring
theorem AccKind.op_right_comm (k : AccKind) (a b c : Int) : k.op (k.op a b) c = k.op (k.op a c) b := by
  cases k <;> simp only [AccKind.op] <;> ring
@[simp] theorem AccKind.op_neutral (k : AccKind) (a : Int) : k.op a k.neutral = a := by
  cases k <;> simp [AccKind.op, AccKind.neutral]
@[simp] theorem AccKind.neutral_op (k : AccKind) (a : Int) : k.op k.neutral a = a := by
  cases k <;> simp [AccKind.op, AccKind.neutral]
theorem AccKind.op_absorbing (k : AccKind) {z : Int} (h : some z = k.absorbing) (a : Int) : k.op a z = z := by
  cases k <;> simp_all [AccKind.op, AccKind.absorbing]
theorem AccKind.absorbing_op (k : AccKind) {z : Int} (h : some z = k.absorbing) (a : Int) : k.op z a = z := by
  rw [AccKind.op_comm, k.op_absorbing h]

theorem total_op (k : AccKind) (a b : Int) (es : List Expr) :
    total ρ σ k (k.op a b) es = k.op a (total ρ σ k b es) := by
  induction es generalizing b with
  | nil => rfl
  | cons e es ih => simp only [total, List.foldl_cons] at *; rw [k.op_assoc, ih]

theorem total_op' (k : AccKind) (a b : Int) (es : List Expr) :
    total ρ σ k (k.op a b) es = k.op (total ρ σ k a es) b := by
  rw [k.op_comm, total_op, k.op_comm]

theorem total_absorb (k : AccKind) {z : Int} (h : some z = k.absorbing) (es : List Expr) :
    total ρ σ k z es = z := by
  induction es with
  | nil => rfl
  | cons e es ih => simp only [total, List.foldl_cons] at *; rw [k.absorbing_op h, ih]

@[simp] theorem total_nil (k : AccKind) (c : Int) : total ρ σ k c [] = c := rfl
@[simp] theorem total_cons (k : AccKind) (c : Int) (e : Expr) (es : List Expr) :
    total ρ σ k c (e :: es) = total ρ σ k (k.op c (e.val ρ σ)) es := rfl
theorem total_append (k : AccKind) (c : Int) (es fs : List Expr) :
    total ρ σ k c (es ++ fs) = total ρ σ k (total ρ σ k c es) fs := by
  simp [total, List.foldl_append]

theorem allOk_nil : AllOk ρ σ [] := by intro e h; cases h
theorem allOk_cons {e : Expr} {es : List Expr} :
    AllOk ρ σ (e :: es) ↔ e.eval ρ σ = .ok (e.val ρ σ) ∧ AllOk ρ σ es := by
  simp [AllOk]
theorem allOk_append {es fs : List Expr} : AllOk ρ σ (es ++ fs) ↔ AllOk ρ σ es ∧ AllOk ρ σ fs := by
  simp only [AllOk, List.mem_append]
  constructor
  · intro h; exact ⟨fun e he => h e (.inl he), fun e he => h e (.inr he)⟩
  · rintro ⟨h1, h2⟩ e (he | he); exacts [h1 e he, h2 e he]

theorem evalAcc_ok (k : AccKind) (c : Int) (es : List Expr) (h : AllOk ρ σ es) :
    Expr.evalAcc ρ σ k c es = .ok (total ρ σ k c es) := by
  induction es generalizing c with
  | nil => simp [Expr.evalAcc]
  | cons e es ih =>
    rw [allOk_cons] at h
    rw [Expr.evalAcc, h.1]; simp [ih _ h.2]

theorem evalAcc_allOk {k : AccKind} {c v : Int} {es : List Expr}
    (h : Expr.evalAcc ρ σ k c es = .ok v) : AllOk ρ σ es := by
  induction es generalizing c with
  | nil => exact allOk_nil
  | cons e es ih =>
    rw [Expr.evalAcc, bind_eq_ok] at h
    obtain ⟨a, h1, h2⟩ := h
    exact allOk_cons.2 ⟨eval_ok_val _ _ h1, ih h2⟩

theorem acc_ok_iff {k : AccKind} {c v : Int} {es : List Expr} :
    (Expr.acc k c es).eval ρ σ = .ok v ↔ AllOk ρ σ es ∧ total ρ σ k c es = v := by
  rw [Expr.eval]
  constructor
  · intro h
    have := evalAcc_allOk h
    rw [evalAcc_ok _ _ _ this] at h
    exact ⟨this, by injection h⟩
  · rintro ⟨h, rfl⟩; exact evalAcc_ok _ _ _ h

theorem accInit_ok (k : AccKind) (es : List Expr) (c : Int) (elist : List Expr)
    (h : AllOk ρ σ es) (he : AllOk ρ σ elist) :
    AllOk ρ σ (accInit k es c elist).2 ∧
    total ρ σ k (accInit k es c elist).1 (accInit k es c elist).2
      = total ρ σ k (total ρ σ k c elist) es := by
  fun_induction accInit k es c elist with
  | case1 c elist => exact ⟨he, rfl⟩
  | case2 c elist es ih =>
    rw [allOk_cons] at h
    have hv : Expr.val ρ σ (.const k.neutral) = k.neutral := rfl
    simpa [hv] using ih h.2 he
  | case3 v es c elist h1 h2 =>
    have hv : Expr.val ρ σ (.const v) = v := rfl
    refine ⟨allOk_nil, ?_⟩
    simp [hv, k.op_absorbing h2, total_absorb k h2]
  | case4 v es c elist h1 h2 ih =>
    rw [allOk_cons] at h
    have hv : Expr.val ρ σ (.const v) = v := rfl
    have := ih h.2 he
    refine ⟨this.1, this.2.trans ?_⟩
    simp only [total_cons, hv]
    rw [total_op']
  | case5 k' c' es c elist ih =>
    rw [allOk_cons] at h
    have hv : Expr.val ρ σ (.acc k' c' []) = c' := by simp [Expr.val, Expr.eval, Expr.evalAcc]
    have := ih h.2 he
    refine ⟨this.1, this.2.trans ?_⟩
    simp only [total_cons, hv]
    rw [total_op']
  | case6 c' es' es c elist hne h2 =>
    rw [allOk_cons] at h
    have hv : Expr.val ρ σ (.acc k c' es') = c' := by
      obtain ⟨_, h'⟩ := acc_ok_iff.1 h.1
      rw [← h']; exact total_absorb k h2 es'
    refine ⟨allOk_nil, ?_⟩
    simp [hv, k.op_absorbing h2, total_absorb k h2]
  | case7 c' es' es c elist hne h2 ih =>
    rw [allOk_cons] at h
    obtain ⟨hok, h'⟩ := acc_ok_iff.1 h.1
    have := ih h.2 (allOk_append.2 ⟨he, hok⟩)
    refine ⟨this.1, this.2.trans ?_⟩
    simp only [total_cons]
    congr 1
    rw [← h', total_append]
    have : (if c' ≠ k.neutral then k.op c c' else c) = k.op c c' := by
      split
      · rfl
      · rename_i hc; simp at hc; simp [hc]
    rw [this, ← total_op, total_op']
  | case8 k' c' es' es c elist hne hk ih =>
    rw [allOk_cons] at h
    have := ih h.2 (allOk_append.2 ⟨he, allOk_cons.2 ⟨h.1, allOk_nil⟩⟩)
    refine ⟨this.1, this.2.trans ?_⟩
    simp [total_append]
  | case9 e es c elist _ _ _ ih =>
    rw [allOk_cons] at h
    have := ih h.2 (allOk_append.2 ⟨he, allOk_cons.2 ⟨h.1, allOk_nil⟩⟩)
    refine ⟨this.1, this.2.trans ?_⟩
    simp [total_append]

theorem mkAcc_ok (k : AccKind) (es : List Expr) (c : Int) (h : AllOk ρ σ es) :
    (mkAcc k es c).eval ρ σ = .ok (total ρ σ k c es) := by
  have := accInit_ok k es c [] h allOk_nil
  exact acc_ok_iff.2 ⟨this.1, this.2⟩

theorem accLoop_ok (k : AccKind) (es : List Expr) (c : Int) (elist : List Expr)
    (h : AllOk ρ σ es) (he : AllOk ρ σ elist) :
    AllOk ρ σ (accLoop k es c elist).2 ∧
    total ρ σ k (accLoop k es c elist).1 (accLoop k es c elist).2
      = total ρ σ k (total ρ σ k c elist) es := by
  have hconst : ∀ v, Expr.val ρ σ (.const v) = v := fun _ => rfl
  fun_induction accLoop k es c elist with
  | case1 c elist => exact ⟨he, rfl⟩
  | case2 es c elist ih =>
    rw [allOk_cons] at h
    simpa [hconst] using ih h.2 he
  | case3 v es c elist h1 h2 =>
    refine ⟨allOk_nil, ?_⟩
    simp [hconst, k.op_absorbing h2, total_absorb k h2]
  | case4 v es c elist h1 h2 h3 =>
    rw [allOk_cons] at h
    refine ⟨allOk_nil, ?_⟩
    simp only [total_cons, hconst, total_nil]
    rw [← total_op', total_absorb k h3, total_absorb k h3]
  | case5 v es c elist h1 h2 h3 ih =>
    rw [allOk_cons] at h
    have := ih h.2 he
    refine ⟨this.1, this.2.trans ?_⟩
    simp only [total_cons, hconst]
    rw [total_op']
  | case6 c' es' es c elist hemp ih =>
    rw [allOk_cons] at h
    have he' : es' = [] := by simpa using hemp
    subst he'
    have hv : Expr.val ρ σ (.acc k c' []) = c' := by simp [Expr.val, Expr.eval, Expr.evalAcc]
    have := ih h.2 he
    refine ⟨this.1, this.2.trans ?_⟩
    simp only [total_cons, hv]
    rw [total_op']
  | case7 c' es' es c elist hne hc h2 =>
    rw [allOk_cons] at h
    obtain ⟨hok, h'⟩ := acc_ok_iff.1 h.1
    refine ⟨allOk_nil, ?_⟩
    simp only [total_cons, total_nil]
    rw [← h', ← total_op', ← total_op, total_absorb k h2, total_absorb k h2, total_absorb k h2]
  | case8 c' es' es c elist hne hc h2 ih =>
    rw [allOk_cons] at h
    obtain ⟨hok, h'⟩ := acc_ok_iff.1 h.1
    have := ih h.2 (allOk_append.2 ⟨he, hok⟩)
    refine ⟨this.1, this.2.trans ?_⟩
    simp only [total_cons]
    congr 1
    rw [← h', total_append, ← total_op, total_op']
  | case9 c' es' es c elist hne hc ih =>
    rw [allOk_cons] at h
    have hc' : c' = k.neutral := by simpa using hc
    obtain ⟨hok, h'⟩ := acc_ok_iff.1 h.1
    have := ih h.2 (allOk_append.2 ⟨he, hok⟩)
    refine ⟨this.1, this.2.trans ?_⟩
    simp only [total_cons]
    congr 1
    rw [← h', total_append, ← total_op, hc', k.op_neutral]
  | case10 k' c' es' es c elist hk ih =>
    rw [allOk_cons] at h
    have := ih h.2 (allOk_append.2 ⟨he, allOk_cons.2 ⟨h.1, allOk_nil⟩⟩)
    refine ⟨this.1, this.2.trans ?_⟩
    simp [total_append]
  | case11 e es c elist _ _ ih =>
    rw [allOk_cons] at h
    have := ih h.2 (allOk_append.2 ⟨he, allOk_cons.2 ⟨h.1, allOk_nil⟩⟩)
    refine ⟨this.1, this.2.trans ?_⟩
    simp [total_append]

@[simp] theorem coerce_eval (o : Obj) : (coerce o).eval ρ σ = o.eval ρ σ := by
  cases o <;> simp [coerce, Obj.eval, Expr.eval]

theorem binop_ok (k : AccKind) (a b : Int) : k.binop.op a b = .ok (k.op a b) := by
  cases k <;> rfl

theorem bin_ok_iff {op : BOp} {l r : Expr} {v : Int} :
    (Expr.bin op l r).eval ρ σ = .ok v ↔
      ∃ a b, l.eval ρ σ = .ok a ∧ r.eval ρ σ = .ok b ∧ op.op a b = .ok v := by
  rw [Expr.eval, bind_eq_ok]
  simp only [bind_eq_ok]
  constructor
  · rintro ⟨a, h1, b, h2, h3⟩; exact ⟨a, b, h1, h2, h3⟩
  · rintro ⟨a, b, h1, h2, h3⟩; exact ⟨a, h1, b, h2, h3⟩

theorem expand_ok (k : AccKind) (o : Obj) {x : Int} (h : o.eval ρ σ = .ok x) :
    AllOk ρ σ (expandOperand k o) ∧ ∀ c, total ρ σ k c (expandOperand k o) = k.op c x := by
  have key : ∀ e : Expr, e.eval ρ σ = .ok x →
      AllOk ρ σ [e] ∧ ∀ c, total ρ σ k c [e] = k.op c x := by
    intro e he
    refine ⟨allOk_cons.2 ⟨eval_ok_val _ _ he, allOk_nil⟩, fun c => ?_⟩
    simp [val_of_ok _ _ he]
  unfold expandOperand
  split
  · rename_i op l r
    split
    · rename_i hop; subst hop
      rw [Obj.eval, bin_ok_iff] at h
      obtain ⟨a, b, h1, h2, h3⟩ := h
      rw [binop_ok] at h3; injection h3 with h3
      refine ⟨allOk_cons.2 ⟨eval_ok_val _ _ h1, allOk_cons.2 ⟨eval_ok_val _ _ h2, allOk_nil⟩⟩, fun c => ?_⟩
      simp [val_of_ok _ _ h1, val_of_ok _ _ h2, k.op_assoc, h3]
    · exact key _ h
  · exact key _ (by simpa using h)

/-- `_make_accumulate` computes the operation on the values. -/
theorem makeAcc_ok (k : AccKind) (l r : Obj) {x y : Int}
    (hl : l.eval ρ σ = .ok x) (hr : r.eval ρ σ = .ok y) :
    (makeAcc k l r).eval ρ σ = .ok (k.op x y) := by
  obtain ⟨hl1, hl2⟩ := expand_ok k l hl
  obtain ⟨hr1, hr2⟩ := expand_ok k r hr
  have H := accLoop_ok (ρ := ρ) (σ := σ) k (expandOperand k l ++ expandOperand k r) k.neutral []
    (allOk_append.2 ⟨hl1, hr1⟩) allOk_nil
  rw [total_append, total_nil, hl2, hr2, k.neutral_op] at H
  unfold makeAcc
  generalize accLoop k (expandOperand k l ++ expandOperand k r) k.neutral [] = p at H
  obtain ⟨c, el⟩ := p
  obtain ⟨H1, H2⟩ := H
  dsimp only at H1 H2 ⊢
  rw [← H2]
  split
  · simp [Expr.eval]
  · rename_i e
    rw [allOk_cons] at H1
    split
    · rename_i hc; subst hc; simpa using H1.1
    · rw [Expr.eval]; simp [Expr.eval, H1.1, binop_ok]
  · rename_i e1 e2
    split
    · rename_i hc; subst hc
      rw [allOk_cons, allOk_cons] at H1
      rw [Expr.eval]; simp [H1.1, H1.2.1, binop_ok]
    · exact mkAcc_ok _ _ _ H1
  · split
    · rename_i hc; subst hc; exact mkAcc_ok _ _ _ H1
    · exact mkAcc_ok _ _ _ H1

theorem pyAdd_ok (e : Expr) (o : Obj) {x y : Int} (he : e.eval ρ σ = .ok x) (ho : o.eval ρ σ = .ok y) :
    (e.pyAdd o).eval ρ σ = .ok (x + y) := by
  have gen : (makeSum (.expr e) o).eval ρ σ = .ok (x + y) := makeAcc_ok .sum (.expr e) o he ho
  unfold Expr.pyAdd
  split
  · rename_i v
    have hx : v = x := by simpa [Expr.eval] using he
    split
    · rename_i h0; subst hx; simp [h0, ho]
    · split
      · rename_i w; have : w = y := by simpa [Obj.eval, Expr.eval] using ho
        subst hx this; simp [Expr.eval]
      · exact gen
  · rename_i w _
    have : w = y := by simpa [Obj.eval, Expr.eval] using ho
    subst this
    split
    · rename_i h0; subst h0; simpa using he
    · exact gen
  · exact gen

theorem pySub_ok (e : Expr) (o : Obj) {x y : Int} (he : e.eval ρ σ = .ok x) (ho : o.eval ρ σ = .ok y) :
    (e.pySub o).eval ρ σ = .ok (x - y) := by
  have gen : (Expr.bin .sub e (coerce o)).eval ρ σ = .ok (x - y) := by
    rw [Expr.eval]; simp [he, ho, BOp.op]
  unfold Expr.pySub
  split
  · rename_i v
    have hx : v = x := by simpa [Expr.eval] using he
    split
    · rename_i h0; subst hx; simp [Expr.eval, UOp.op, h0, ho]
    · split
      · rename_i w; have : w = y := by simpa [Obj.eval, Expr.eval] using ho
        subst hx this; simp [Expr.eval]
      · exact gen
  · rename_i w _
    have : w = y := by simpa [Obj.eval, Expr.eval] using ho
    subst this
    split
    · rename_i h0; subst h0; simpa using he
    · exact gen
  · exact gen

theorem pyMul_ok (e : Expr) (o : Obj) {x y : Int} (he : e.eval ρ σ = .ok x) (ho : o.eval ρ σ = .ok y) :
    (e.pyMul o).eval ρ σ = .ok (x * y) := by
  have gen : (makeProd (.expr e) o).eval ρ σ = .ok (x * y) := makeAcc_ok .prod (.expr e) o he ho
  unfold Expr.pyMul
  split
  · rename_i v
    have hx : v = x := by simpa [Expr.eval] using he
    split
    · rename_i h0; subst hx; simp [Expr.eval, h0]
    · split
      · rename_i h1; subst hx; simp [h1, ho]
      · split
        · rename_i w; have : w = y := by simpa [Obj.eval, Expr.eval] using ho
          subst hx this; simp [Expr.eval]
        · exact gen
  · rename_i w _
    have : w = y := by simpa [Obj.eval, Expr.eval] using ho
    subst this
    split
    · rename_i h0; subst h0; simp [Expr.eval]
    · split
      · rename_i h0; subst h0; simpa using he
      · exact gen
  · exact gen

end
end Satisfy
