import Verif.Lemmas.Vars
import Verif.SpecOptimize
/-! The operators introduce no parameters: as the lemmas about `vars`. -/

namespace Satisfy

theorem mem_paramsList (es : List Expr) (x : Nat) : x ∈ Expr.paramsList es ↔ ∃ e ∈ es, x ∈ e.params := by
  induction es with
  | nil => simp [Expr.paramsList]
  | cons e es ih => simp [Expr.paramsList, ih]

@[simp] theorem mem_params_un {op : UOp} {e : Expr} {x : Nat} : x ∈ (Expr.un op e).params ↔ x ∈ e.params := by simp [Expr.params]
@[simp] theorem mem_params_bin {op : BOp} {l r : Expr} {x : Nat} : x ∈ (Expr.bin op l r).params ↔ x ∈ l.params ∨ x ∈ r.params := by
  simp [Expr.params]
@[simp] theorem mem_params_acc {k : AccKind} {c : Int} {es : List Expr} {x : Nat} :
    x ∈ (Expr.acc k c es).params ↔ ∃ e ∈ es, x ∈ e.params := by
  simp [Expr.params, mem_paramsList]

def objParams (o : Obj) : List Nat := (coerce o).params

theorem ex_mono_p {x : Nat} {a : Expr} {es elist : List Expr} (h : ∃ e ∈ es ++ elist, x ∈ e.params) :
    ∃ e ∈ a :: es ++ elist, x ∈ e.params := by
  obtain ⟨e, he, hx⟩ := h; exact ⟨e, by simp at he ⊢; tauto, hx⟩

theorem ex_snoc_p {x : Nat} {a : Expr} {es elist : List Expr} (h : ∃ e ∈ es ++ (elist ++ [a]), x ∈ e.params) :
    ∃ e ∈ a :: es ++ elist, x ∈ e.params := by
  obtain ⟨e, he, hx⟩ := h; exact ⟨e, by simp at he ⊢; tauto, hx⟩

theorem ex_flat_p {x : Nat} {k : AccKind} {c' : Int} {es' es elist : List Expr}
    (h : ∃ e ∈ es ++ (elist ++ es'), x ∈ e.params) :
    ∃ e ∈ Expr.acc k c' es' :: es ++ elist, x ∈ e.params := by
  obtain ⟨e, he, hx⟩ := h
  simp only [List.mem_append] at he
  rcases he with he | he | he
  · exact ⟨e, by simp [he], hx⟩
  · exact ⟨e, by simp [he], hx⟩
  · exact ⟨Expr.acc k c' es', by simp, mem_params_acc.2 ⟨e, he, hx⟩⟩

theorem accInit_params (k : AccKind) (es : List Expr) (c : Int) (elist : List Expr) (x : Nat)
    (h : ∃ e ∈ (accInit k es c elist).2, x ∈ e.params) : ∃ e ∈ es ++ elist, x ∈ e.params := by
  fun_induction accInit k es c elist with
  | case1 c elist => simpa using h
  | case2 _ _ _ ih => exact ex_mono_p (ih h)
  | case3 => simp at h
  | case4 _ _ _ _ _ _ ih => exact ex_mono_p (ih h)
  | case5 _ _ _ _ _ ih => exact ex_mono_p (ih h)
  | case6 => simp at h
  | case7 _ _ _ _ _ _ _ ih => exact ex_flat_p (ih h)
  | case8 _ _ _ _ _ _ _ _ ih => exact ex_snoc_p (ih h)
  | case9 _ _ _ _ _ _ _ ih => exact ex_snoc_p (ih h)

theorem accLoop_params (k : AccKind) (es : List Expr) (c : Int) (elist : List Expr) (x : Nat)
    (h : ∃ e ∈ (accLoop k es c elist).2, x ∈ e.params) : ∃ e ∈ es ++ elist, x ∈ e.params := by
  fun_induction accLoop k es c elist with
  | case1 c elist => simpa using h
  | case2 _ _ _ ih => exact ex_mono_p (ih h)
  | case3 => simp at h
  | case4 => simp at h
  | case5 _ _ _ _ _ _ _ ih => exact ex_mono_p (ih h)
  | case6 _ _ _ _ _ _ ih => exact ex_mono_p (ih h)
  | case7 => simp at h
  | case8 _ _ _ _ _ _ _ _ ih => exact ex_flat_p (ih h)
  | case9 _ _ _ _ _ _ _ ih => exact ex_flat_p (ih h)
  | case10 _ _ _ _ _ _ _ ih => exact ex_snoc_p (ih h)
  | case11 _ _ _ _ _ _ ih => exact ex_snoc_p (ih h)

theorem expand_params (k : AccKind) (o : Obj) (x : Nat) (h : ∃ e ∈ expandOperand k o, x ∈ e.params) :
    x ∈ (coerce o).params := by
  unfold expandOperand at h
  split at h
  · split at h
    · simpa [coerce] using h
    · simpa [coerce] using h
  · simpa using h

theorem makeAcc_params (k : AccKind) (l r : Obj) (x : Nat) (h : x ∈ (makeAcc k l r).params) :
    x ∈ (coerce l).params ∨ x ∈ (coerce r).params := by
  have H : (∃ e ∈ (accLoop k (expandOperand k l ++ expandOperand k r) k.neutral []).2, x ∈ e.params) →
      x ∈ (coerce l).params ∨ x ∈ (coerce r).params := by
    intro h'
    obtain ⟨e, he, hx⟩ := accLoop_params _ _ _ _ _ h'
    simp only [List.append_nil, List.mem_append] at he
    rcases he with he | he
    · exact .inl (expand_params k l x ⟨e, he, hx⟩)
    · exact .inr (expand_params k r x ⟨e, he, hx⟩)
  apply H
  unfold makeAcc at h
  generalize accLoop k (expandOperand k l ++ expandOperand k r) k.neutral [] = p at h
  obtain ⟨c, el⟩ := p
  dsimp only at h ⊢
  have mk : ∀ {es : List Expr} {c}, x ∈ (mkAcc k es c).params → ∃ e ∈ es, x ∈ e.params := by
    intro es c hx
    simpa using accInit_params k es c [] x (mem_params_acc.1 hx)
  split at h
  · simp [Expr.params] at h
  · split at h
    · simpa using h
    · simpa [Expr.params] using h
  · split at h
    · simpa using h
    · exact mk h
  · split at h <;> exact mk h


theorem mem_params_add (a b : Obj) (x : Nat) (h : x ∈ objParams (a.add b)) : x ∈ objParams a ∨ x ∈ objParams b := by
  have key : ∀ (e : Expr) (o : Obj), x ∈ (e.pyAdd o).params → x ∈ e.params ∨ x ∈ objParams o := by
    intro e o hx
    unfold Expr.pyAdd at hx
    split at hx
    · split at hx
      · exact .inr hx
      · split at hx
        · simp [Expr.params] at hx
        · exact makeAcc_params _ _ _ _ hx
    · split at hx
      · exact .inl hx
      · exact makeAcc_params _ _ _ _ hx
    · exact makeAcc_params _ _ _ _ hx
  match a, b with
  | .int _, .int _ => simp [Obj.add, objParams, coerce, Expr.params] at h
  | .int _, .expr _ => exact key _ _ h
  | .expr _, _ => exact key _ _ h

theorem mem_params_mul (a b : Obj) (x : Nat) (h : x ∈ objParams (a.mul b)) : x ∈ objParams a ∨ x ∈ objParams b := by
  have key : ∀ (e : Expr) (o : Obj), x ∈ (e.pyMul o).params → x ∈ e.params ∨ x ∈ objParams o := by
    intro e o hx
    unfold Expr.pyMul at hx
    split at hx
    · split at hx
      · simp [Expr.params] at hx
      · split at hx
        · exact .inr hx
        · split at hx
          · simp [Expr.params] at hx
          · exact makeAcc_params _ _ _ _ hx
    · split at hx
      · simp [Expr.params] at hx
      · split at hx
        · exact .inl hx
        · exact makeAcc_params _ _ _ _ hx
    · exact makeAcc_params _ _ _ _ hx
  match a, b with
  | .int _, .int _ => simp [Obj.mul, objParams, coerce, Expr.params] at h
  | .int _, .expr _ => exact key _ _ h
  | .expr _, _ => exact key _ _ h

theorem mem_params_sub (a b : Obj) (x : Nat) (h : x ∈ objParams (a.sub b)) : x ∈ objParams a ∨ x ∈ objParams b := by
  have key : ∀ (e : Expr) (o : Obj), x ∈ (e.pySub o).params → x ∈ e.params ∨ x ∈ objParams o := by
    intro e o hx
    unfold Expr.pySub at hx
    split at hx
    · split at hx
      · simp at hx; exact .inr hx
      · split at hx
        · simp [Expr.params] at hx
        · simp at hx; exact hx
    · split at hx
      · exact .inl hx
      · simp at hx; exact hx
    · simp at hx; exact hx
  match a, b with
  | .int _, .int _ => simp [Obj.sub, objParams, coerce, Expr.params] at h
  | .int _, .expr _ => exact key _ _ h
  | .expr _, _ => exact key _ _ h

theorem mem_params_cmp (c : Cmp) (a b : Obj) (x : Nat) (h : x ∈ objParams (Obj.cmp c a b)) :
    x ∈ objParams a ∨ x ∈ objParams b := by
  have key : ∀ (c : Cmp) (e : Expr) (o : Obj), x ∈ objParams (e.pyCmp c o) → x ∈ e.params ∨ x ∈ objParams o := by
    intro c e o hx
    unfold Expr.pyCmp at hx
    split at hx
    · simp [objParams, coerce, Expr.params] at hx
    · simpa [objParams, coerce] using hx
  unfold Obj.cmp at h
  split at h
  · simp [objParams, coerce, Expr.params] at h
  · exact (key _ _ _ h).symm
  · exact (key _ _ _ h).symm
  · exact key _ _ _ h

theorem mem_params_and (a b : Obj) (x : Nat) (h : x ∈ objParams (a.and b)) : x ∈ objParams a ∨ x ∈ objParams b := by
  unfold Obj.and at h
  split at h
  · simp [objParams, coerce, Expr.params] at h
  · simpa [objParams, coerce] using h
  · unfold Expr.pyAnd at h
    split at h
    · simp [objParams, coerce, Expr.params] at h
    · simpa [objParams, coerce] using h

end Satisfy
