import Verif.Lemmas.Expr
import Verif.SpecCryptarithm
import Mathlib.Tactic.SplitIfs
/-! When an expression built with `+`, `-`, `*` is a `Const` object. -/

namespace Satisfy

/-- Expressions that stay expressions, whatever they are added to, and unless they are multiplied by zero. -/
inductive Solid : Expr → Prop
  | var (x : Name) : Solid (.var x)
  | param (i : Nat) (n : Name) : Solid (.param i n)
  | un (o : UOp) (e : Expr) : Solid (.un o e)
  | other {o : BOp} (a b : Expr) : o ≠ .add → o ≠ .mul → Solid (.bin o a b)
  | pair {o : BOp} {a b : Expr} : Solid a → Solid b → Solid (.bin o a b)
  | left {k : AccKind} {n : Int} {b : Expr} : (k = .prod → n ≠ 0) → Solid b → Solid (.bin k.binop (.const n) b)
  | acc {k : AccKind} {c : Int} {es : List Expr} : es ≠ [] → (∀ e ∈ es, Solid e) → (k = .prod → c ≠ 0) → Solid (.acc k c es)

theorem Solid.not_const {e : Expr} (h : Solid e) (n : Int) : e ≠ .const n := by
  rintro rfl
  cases h

/-- A constant, or solid. -/
def ConstOr (e : Expr) : Prop := (∃ n, e = .const n) ∨ Solid e

theorem accInit_solid (k : AccKind) (es : List Expr) (c : Int) (elist : List Expr) (h : ∀ e ∈ es, Solid e) (hel : ∀ e ∈ elist, Solid e)
    (hc : k = .prod → c ≠ 0) (hne : es ≠ [] ∨ elist ≠ []) :
    (k = .prod → (accInit k es c elist).1 ≠ 0) ∧ (accInit k es c elist).2 ≠ [] ∧ ∀ e ∈ (accInit k es c elist).2, Solid e := by
  induction es generalizing c elist with
  | nil => exact ⟨hc, by simpa [accInit] using hne, hel⟩
  | cons e es ih =>
    have hs := h e (by simp)
    have ht : ∀ e ∈ es, Solid e := fun x hx => h x (by simp [hx])
    have hplain : ∀ x, Solid x → (k = .prod → (accInit k es c (elist ++ [x])).1 ≠ 0) ∧ (accInit k es c (elist ++ [x])).2 ≠ [] ∧
        ∀ e ∈ (accInit k es c (elist ++ [x])).2, Solid e := fun x hx =>
      ih c (elist ++ [x]) ht (fun y hy => by
        rcases List.mem_append.1 hy with hy | hy
        · exact hel y hy
        · rw [List.mem_singleton] at hy; rw [hy]; exact hx) hc (.inr (by simp))
    cases e with
    | const n => exact absurd rfl (hs.not_const n)
    | acc k' c' es' =>
      cases hs with
      | acc h1 h2 h3 =>
        cases es' with
        | nil => exact absurd rfl h1
        | cons x xs =>
          have heq : accInit k (.acc k' c' (x :: xs) :: es) c elist = if k' = k then
              if some c' = k.absorbing then (c', [])
              else accInit k es (if c' ≠ k.neutral then k.op c c' else c) (elist ++ x :: xs)
            else accInit k es c (elist ++ [.acc k' c' (x :: xs)]) := by
            rw [accInit]; simp
          rw [heq]
          by_cases hk : k' = k
          · subst hk
            have ha : ¬ some c' = k'.absorbing := by
              cases k' with
              | sum => simp [AccKind.absorbing]
              | prod => simpa [AccKind.absorbing] using h3 rfl
            rw [if_pos rfl, if_neg ha]
            refine ih _ _ ht (fun y hy => ?_) (fun hp => ?_) (.inr (by simp))
            · rcases List.mem_append.1 hy with hy | hy
              · exact hel y hy
              · exact h2 y hy
            · subst hp
              by_cases hn : c' ≠ AccKind.neutral .prod
              · rw [if_pos hn]; exact Int.mul_ne_zero (hc rfl) (h3 rfl)
              · rw [if_neg hn]; exact hc rfl
          · rw [if_neg hk]
            exact hplain _ (.acc h1 h2 h3)
    | var x => exact hplain _ hs
    | param i n => exact hplain _ hs
    | un o e => exact hplain _ hs
    | bin o a b => exact hplain _ hs

theorem accLoop_solid (k : AccKind) (es : List Expr) (c : Int) (elist : List Expr) (h : ∀ e ∈ es, ConstOr e) (hel : ∀ e ∈ elist, Solid e)
    (hc : k = .prod → c ≠ 0) :
    (k = .prod ∧ .const 0 ∈ es ∧ accLoop k es c elist = (0, [])) ∨
    ((k = .prod → (accLoop k es c elist).1 ≠ 0 ∧ .const 0 ∉ es) ∧ (∀ e ∈ (accLoop k es c elist).2, Solid e) ∧
      ((accLoop k es c elist).2 = [] ↔ elist = [] ∧ ∀ e ∈ es, ∃ n, e = .const n)) := by
  induction es generalizing c elist with
  | nil => exact .inr ⟨fun hk => ⟨hc hk, by simp⟩, hel, by simp [accLoop]⟩
  | cons e es ih =>
    have ht : ∀ e ∈ es, ConstOr e := fun x hx => h x (by simp [hx])
    -- one more solid element, or several
    have hplain : ∀ (x : Expr) (xs : List Expr) (c' : Int), Solid x → (∀ y ∈ xs, Solid y) → xs ≠ [] → (k = .prod → c' ≠ 0) →
        (k = .prod ∧ .const 0 ∈ x :: es ∧ accLoop k es c' (elist ++ xs) = (0, [])) ∨
        ((k = .prod → (accLoop k es c' (elist ++ xs)).1 ≠ 0 ∧ .const 0 ∉ x :: es) ∧ (∀ e ∈ (accLoop k es c' (elist ++ xs)).2, Solid e) ∧
          ((accLoop k es c' (elist ++ xs)).2 = [] ↔ elist = [] ∧ ∀ e ∈ x :: es, ∃ n, e = .const n)) := by
      intro x xs c' hx hxs hne hc'
      rcases ih c' (elist ++ xs) ht (fun y hy => by
        rcases List.mem_append.1 hy with hy | hy
        · exact hel y hy
        · exact hxs y hy) hc' with ⟨h1, h2, h3⟩ | ⟨h1, h2, h3⟩
      · exact .inl ⟨h1, List.mem_cons_of_mem _ h2, h3⟩
      · refine .inr ⟨fun hk => ⟨(h1 hk).1, ?_⟩, h2, ?_⟩
        · intro hm
          rcases List.mem_cons.1 hm with hm | hm
          · exact hx.not_const 0 hm.symm
          · exact (h1 hk).2 hm
        · rw [h3]
          constructor
          · rintro ⟨h4, _⟩
            exact absurd (List.append_eq_nil_iff.1 h4).2 hne
          · rintro ⟨_, h4⟩
            obtain ⟨n, hn⟩ := h4 x (by simp)
            exact absurd hn (hx.not_const n)
    -- one more constant other than zero
    have hconst : ∀ (v c' : Int), (k = .prod → v ≠ 0) → (k = .prod → c' ≠ 0) →
        (k = .prod ∧ .const 0 ∈ Expr.const v :: es ∧ accLoop k es c' elist = (0, [])) ∨
        ((k = .prod → (accLoop k es c' elist).1 ≠ 0 ∧ .const 0 ∉ Expr.const v :: es) ∧ (∀ e ∈ (accLoop k es c' elist).2, Solid e) ∧
          ((accLoop k es c' elist).2 = [] ↔ elist = [] ∧ ∀ e ∈ Expr.const v :: es, ∃ n, e = .const n)) := by
      intro v c' hv hc'
      rcases ih c' elist ht hel hc' with ⟨h1, h2, h3⟩ | ⟨h1, h2, h3⟩
      · exact .inl ⟨h1, List.mem_cons_of_mem _ h2, h3⟩
      · refine .inr ⟨fun hk => ⟨(h1 hk).1, ?_⟩, h2, ?_⟩
        · intro hm
          rcases List.mem_cons.1 hm with hm | hm
          · cases hm; exact hv hk rfl
          · exact (h1 hk).2 hm
        · rw [h3]
          constructor
          · rintro ⟨h4, h5⟩
            exact ⟨h4, fun e he => (List.mem_cons.1 he).elim (fun he => ⟨v, he⟩) (h5 e)⟩
          · rintro ⟨h4, h5⟩
            exact ⟨h4, fun e he => h5 e (List.mem_cons_of_mem _ he)⟩
    rcases h e (by simp) with ⟨v, rfl⟩ | hs
    · rw [accLoop]
      split_ifs with hn ha hb
      · refine hconst v c (fun hk => ?_) hc
        subst hk
        rw [hn]; decide
      · cases k with
        | sum => simp [AccKind.absorbing] at ha
        | prod =>
          simp only [AccKind.absorbing, Option.some.injEq] at ha
          subst ha
          exact .inl ⟨rfl, by simp, rfl⟩
      · cases k with
        | sum => simp [AccKind.absorbing] at hb
        | prod =>
          simp only [AccKind.absorbing, Option.some.injEq, AccKind.op] at hb ha
          exact absurd hb (Int.mul_ne_zero (hc rfl) ha)
      · cases k with
        | sum => exact hconst v _ (by simp) (by simp)
        | prod =>
          simp only [AccKind.absorbing, Option.some.injEq, AccKind.op] at hb ha
          exact hconst v _ (fun _ => ha) (fun _ => hb)
    · cases e with
      | const n => exact absurd rfl (hs.not_const n)
      | acc k' c' es' =>
        have hs' := hs
        cases hs' with
        | acc h1 h2 h3 =>
          rw [accLoop]
          have hemp : es'.isEmpty = false := by
            cases es' with
            | nil => exact absurd rfl h1
            | cons _ _ => rfl
          rw [hemp]
          by_cases hk : k' = k
          · subst hk
            rw [if_pos rfl, if_neg (by simp)]
            by_cases hn : c' ≠ k'.neutral
            · have hop : k' = .prod → k'.op c c' ≠ 0 := by
                rintro rfl
                exact Int.mul_ne_zero (hc rfl) (h3 rfl)
              have ha : ¬ some (k'.op c c') = k'.absorbing := by
                cases k' with
                | sum => simp [AccKind.absorbing]
                | prod => simpa [AccKind.absorbing] using hop rfl
              rw [if_pos hn, if_neg ha]
              exact hplain _ es' _ hs h2 h1 hop
            · rw [if_neg hn]
              exact hplain _ es' _ hs h2 h1 hc
          · rw [if_neg hk]
            exact hplain _ [.acc k' c' es'] _ hs (by simpa using hs) (by simp) hc
      | var x => exact hplain _ [.var x] _ hs (by simpa using hs) (by simp) hc
      | param i n => exact hplain _ [.param i n] _ hs (by simpa using hs) (by simp) hc
      | un o e => exact hplain _ [.un o e] _ hs (by simpa using hs) (by simp) hc
      | bin o a b => exact hplain _ [.bin o a b] _ hs (by simpa using hs) (by simp) hc

/-- What is known about an object. -/
def FoldsTo : Folded → Obj → Prop
  | .number n, o => o = .int n
  | .constant n, o => o = .expr (.const n)
  | .formula, o => ∃ e, o = .expr e ∧ Solid e

theorem expand_sort (k : AccKind) {f : Folded} {o : Obj} (h : FoldsTo f o) :
    (∀ e ∈ expandOperand k o, ConstOr e) ∧ (∀ n, f.value? = some n → expandOperand k o = [.const n]) ∧
    (f.value? = none → (k = .prod → .const 0 ∉ expandOperand k o) ∧ ∃ e ∈ expandOperand k o, Solid e) := by
  cases f with
  | number n =>
    have h : o = .int n := h
    subst h
    refine ⟨by simp [expandOperand, coerce, ConstOr], by simp [Folded.value?, expandOperand, coerce], by simp [Folded.value?]⟩
  | constant n =>
    have h : o = .expr (.const n) := h
    subst h
    refine ⟨by simp [expandOperand, coerce, ConstOr], by simp [Folded.value?, expandOperand, coerce], by simp [Folded.value?]⟩
  | formula =>
    obtain ⟨e, rfl, hs⟩ := h
    refine ⟨?_, by simp [Folded.value?], fun _ => ?_⟩
    · cases e with
      | bin o a b =>
        rw [expandOperand]
        split_ifs with ho
        · intro x hx
          simp only [List.mem_cons, List.not_mem_nil, or_false] at hx
          cases hs with
          | other _ _ h1 h2 => cases k <;> simp_all [AccKind.binop]
          | pair h1 h2 => rcases hx with rfl | rfl <;> exact .inr ‹_›
          | left h1 h2 =>
            rcases hx with rfl | rfl
            · exact .inl ⟨_, rfl⟩
            · exact .inr h2
        · intro x hx; rw [List.mem_singleton] at hx; rw [hx]; exact .inr hs
      | const n => exact absurd rfl (hs.not_const n)
      | var x => intro y hy; have hy := List.mem_singleton.1 hy; rw [hy]; exact .inr hs
      | param i n => intro y hy; have hy := List.mem_singleton.1 hy; rw [hy]; exact .inr hs
      | un o e => intro y hy; have hy := List.mem_singleton.1 hy; rw [hy]; exact .inr hs
      | acc k' c es => intro y hy; have hy := List.mem_singleton.1 hy; rw [hy]; exact .inr hs
    · have single : expandOperand k (.expr e) = [e] → (k = .prod → Expr.const 0 ∉ expandOperand k (.expr e)) ∧ ∃ x ∈ expandOperand k (.expr e), Solid x := by
        intro he
        rw [he]
        exact ⟨fun _ hm => by rw [List.mem_singleton] at hm; exact hs.not_const 0 hm.symm, e, by simp, hs⟩
      cases e with
      | bin o a b =>
        by_cases ho : o = k.binop
        · rw [expandOperand, if_pos ho]
          cases hs with
          | other _ _ h1 h2 => cases k <;> simp_all [AccKind.binop]
          | pair h1 h2 =>
            refine ⟨fun _ hm => ?_, b, by simp, h2⟩
            simp only [List.mem_cons, List.not_mem_nil, or_false] at hm
            rcases hm with hm | hm
            · exact h1.not_const 0 hm.symm
            · exact h2.not_const 0 hm.symm
          | @left k' n _ h1 h2 =>
            refine ⟨fun hk hm => ?_, b, by simp, h2⟩
            simp only [List.mem_cons, List.not_mem_nil, or_false] at hm
            rcases hm with hm | hm
            · cases hm
              subst hk
              cases k' with
              | sum => simp [AccKind.binop] at ho
              | prod => exact h1 rfl rfl
            · exact h2.not_const 0 hm.symm
        · exact single (by rw [expandOperand, if_neg ho])
      | const n => exact absurd rfl (hs.not_const n)
      | var x => exact single rfl
      | param i n => exact single rfl
      | un o e => exact single rfl
      | acc k' c es => exact single rfl

/-- `_make_accumulate` of two operands. -/
theorem makeAcc_fits (k : AccKind) {f g : Folded} {a b : Obj} (ha : FoldsTo f a) (hb : FoldsTo g b) :
    (∀ m n, f.value? = some m → g.value? = some n → makeAcc k a b = .const (k.op m n)) ∧
    (f.value? = none ∨ g.value? = none → if k = .prod ∧ (f.value? = some 0 ∨ g.value? = some 0) then makeAcc k a b = .const 0 else Solid (makeAcc k a b)) := by
  obtain ⟨a1, a2, a3⟩ := expand_sort k ha
  obtain ⟨b1, b2, b3⟩ := expand_sort k hb
  have hmem0 : k = .prod → (Expr.const 0 ∈ expandOperand k a ++ expandOperand k b ↔ f.value? = some 0 ∨ g.value? = some 0) := by
    intro hk
    have one : ∀ (f : Folded) (a : Obj), (∀ n, f.value? = some n → expandOperand k a = [.const n]) →
        (f.value? = none → (k = .prod → .const 0 ∉ expandOperand k a) ∧ ∃ e ∈ expandOperand k a, Solid e) →
        (Expr.const 0 ∈ expandOperand k a ↔ f.value? = some 0) := by
      intro f a h2 h3
      cases hf : f.value? with
      | none => simp [(h3 hf).1 hk]
      | some n => rw [h2 n hf]; simp [eq_comm]
    rw [List.mem_append, one f a a2 a3, one g b b2 b3]
  refine ⟨fun m n hm hn => ?_, fun hnone => ?_⟩
  · have hev : ∀ {f : Folded} {a : Obj} {m : Int}, FoldsTo f a → f.value? = some m → a.eval (fun _ => 0) [] = .ok m := by
      intro f a m hf hm
      cases f with
      | number n => cases hm; cases hf; rfl
      | constant n => cases hm; cases hf; rfl
      | formula => cases hm
    have hok := makeAcc_ok k a b (hev ha hm) (hev hb hn)
    have hnil : (accLoop k (expandOperand k a ++ expandOperand k b) k.neutral []).2 = [] := by
      rcases accLoop_solid k (expandOperand k a ++ expandOperand k b) k.neutral []
        (fun e he => (List.mem_append.1 he).elim (a1 e) (b1 e)) (by simp) (by rintro rfl; decide) with ⟨_, _, hr⟩ | ⟨_, _, h3⟩
      · rw [hr]
      · refine h3.2 ⟨rfl, fun e he => ?_⟩
        rw [a2 m hm, b2 n hn] at he
        simp only [List.cons_append, List.nil_append, List.mem_cons, List.not_mem_nil, or_false] at he
        rcases he with rfl | rfl <;> exact ⟨_, rfl⟩
    have hc : ∃ c, makeAcc k a b = .const c := by
      unfold makeAcc
      generalize accLoop k (expandOperand k a ++ expandOperand k b) k.neutral [] = r at hnil ⊢
      obtain ⟨c, es⟩ := r
      have hnil : es = [] := hnil
      subst hnil
      exact ⟨c, rfl⟩
    obtain ⟨c, hc⟩ := hc
    rw [hc] at hok ⊢
    cases hok
    rfl
  · have hl := accLoop_solid k (expandOperand k a ++ expandOperand k b) k.neutral []
      (fun e he => (List.mem_append.1 he).elim (a1 e) (b1 e)) (by simp) (by rintro rfl; decide)
    rcases hl with ⟨hk, h0, hr⟩ | ⟨h1, h2, h3⟩
    · rw [if_pos ⟨hk, (hmem0 hk).1 h0⟩]
      unfold makeAcc
      rw [hr]
    · rw [if_neg (fun h => (h1 h.1).2 ((hmem0 h.1).2 h.2))]
      have hne : (accLoop k (expandOperand k a ++ expandOperand k b) k.neutral []).2 ≠ [] := by
        intro he
        obtain ⟨_, hall⟩ := h3.1 he
        rcases hnone with hn | hn
        · obtain ⟨e, he, hs⟩ := (a3 hn).2
          obtain ⟨n, hn⟩ := hall e (by simp [he])
          exact hs.not_const n hn
        · obtain ⟨e, he, hs⟩ := (b3 hn).2
          obtain ⟨n, hn⟩ := hall e (by simp [he])
          exact hs.not_const n hn
      unfold makeAcc
      generalize accLoop k (expandOperand k a ++ expandOperand k b) k.neutral [] = r at h1 h2 hne ⊢
      obtain ⟨c, es⟩ := r
      have hc : k = .prod → c ≠ 0 := fun hk => (h1 hk).1
      have hmk : ∀ c, (k = .prod → c ≠ 0) → Solid (mkAcc k es c) := by
        intro c hc
        obtain ⟨g1, g2, g3⟩ := accInit_solid k es c [] h2 (by simp) hc (.inl hne)
        exact .acc g2 g3 g1
      have hneu : k = .prod → k.neutral ≠ 0 := by rintro rfl; decide
      cases es with
      | nil => exact absurd rfl hne
      | cons e es =>
        cases es with
        | nil =>
          show Solid (if c = k.neutral then e else _)
          split_ifs
          · exact h2 e (by simp)
          · exact .left hc (h2 e (by simp))
        | cons e' es =>
          cases es with
          | nil =>
            show Solid (if c = k.neutral then _ else _)
            split_ifs
            · exact .pair (h2 e (by simp)) (h2 e' (by simp))
            · exact hmk c hc
          | cons e'' es =>
            show Solid (if c = k.neutral then _ else _)
            split_ifs
            · exact hmk _ hneu
            · exact hmk c hc

section
variable {f g : Folded} {a b : Obj}

theorem FoldsTo.add (ha : FoldsTo f a) (hb : FoldsTo g b) : FoldsTo (f.add g) (a.add b) := by
  obtain ⟨h1, h2⟩ := makeAcc_fits .sum ha hb
  simp only [reduceCtorEq, false_and, if_false] at h2
  cases f with
  | number m =>
    cases ha
    cases g with
    | number n => cases hb; rfl
    | constant n =>
      cases hb
      show Obj.expr ((Expr.const m).pyAdd (.expr (.const n))) = .expr (.const (m + n))
      rw [Expr.pyAdd]
      split_ifs with h0
      · rw [h0, Int.zero_add]; rfl
      · rfl
    | formula =>
      obtain ⟨e, rfl, hs⟩ := hb
      refine ⟨_, rfl, ?_⟩
      rw [Expr.pyAdd]
      · split_ifs with h0
        · exact hs
        · exact h2 (.inr rfl)
      · intro w hw; cases hw; exact hs.not_const w rfl
  | constant m =>
    cases ha
    have hc : ∀ n, g.value? = some n → (Folded.constant m).add g = .constant (m + n) := by
      intro n hn
      simp only [Folded.add, hn]
      rfl
    cases g with
    | number n =>
      cases hb
      rw [hc n rfl]
      show Obj.expr ((Expr.const m).pyAdd (.int n)) = .expr (.const (m + n))
      rw [Expr.pyAdd]
      · split_ifs with h0
        · rw [h0, Int.zero_add]; rfl
        · exact congrArg Obj.expr (h1 m n rfl rfl)
      · intro w hw; cases hw
    | constant n =>
      cases hb
      rw [hc n rfl]
      show Obj.expr ((Expr.const m).pyAdd (.expr (.const n))) = .expr (.const (m + n))
      rw [Expr.pyAdd]
      split_ifs with h0
      · rw [h0, Int.zero_add]; rfl
      · rfl
    | formula =>
      obtain ⟨e, rfl, hs⟩ := hb
      refine ⟨_, rfl, ?_⟩
      rw [Expr.pyAdd]
      · split_ifs with h0
        · exact hs
        · exact h2 (.inr rfl)
      · intro w hw; cases hw; exact hs.not_const w rfl
  | formula =>
    obtain ⟨e, rfl, hs⟩ := ha
    have hsol := h2 (.inl rfl)
    have hres : Solid (e.pyAdd b) := by
      cases e with
      | const n => exact absurd rfl (hs.not_const n)
      | _ =>
        cases b with
        | int n => exact hsol
        | expr e' =>
          cases e' with
          | const n =>
            rw [Expr.pyAdd]
            · split_ifs
              · exact hs
              · exact hsol
            · intro v hv; cases hv
          | _ => exact hsol
    cases g <;> exact ⟨_, rfl, hres⟩

theorem FoldsTo.neg (ha : FoldsTo f a) : FoldsTo f.neg a.neg := by
  cases f with
  | number m => cases ha; rfl
  | constant m => cases ha; exact ⟨_, rfl, .un _ _⟩
  | formula => obtain ⟨e, rfl, hs⟩ := ha; exact ⟨_, rfl, .un _ _⟩

theorem FoldsTo.sub (ha : FoldsTo f a) (hb : FoldsTo g b) : FoldsTo (f.sub g) (a.sub b) := by
  have hsub : ∀ l r, Solid (.bin .sub l r) := fun l r => .other l r (by decide) (by decide)
  have hconst : ∀ m n : Int, FoldsTo (if m = 0 then .formula else .constant (m - n)) (.expr ((Expr.const m).pySub (.expr (.const n)))) := by
    intro m n
    rw [Expr.pySub]
    split_ifs with h0
    · exact ⟨_, rfl, .un _ _⟩
    · rfl
  have hleft : ∀ (m : Int) (o : Obj), (∀ n, o ≠ .expr (.const n)) → Solid ((Expr.const m).pySub o) := by
    intro m o ho
    rw [Expr.pySub]
    · split_ifs with h0
      · exact .un _ _
      · exact hsub _ _
    · exact ho
  cases f with
  | number m =>
    cases ha
    cases g with
    | number n => cases hb; rfl
    | constant n => cases hb; exact hconst m n
    | formula =>
      obtain ⟨e, rfl, hs⟩ := hb
      exact ⟨_, rfl, hleft m _ (fun n hn => by cases hn; exact hs.not_const n rfl)⟩
  | constant m =>
    cases ha
    cases g with
    | number n => cases hb; exact ⟨_, rfl, hleft m _ (fun n hn => by cases hn)⟩
    | constant n => cases hb; exact hconst m n
    | formula =>
      obtain ⟨e, rfl, hs⟩ := hb
      exact ⟨_, rfl, hleft m _ (fun n hn => by cases hn; exact hs.not_const n rfl)⟩
  | formula =>
    obtain ⟨e, rfl, hs⟩ := ha
    have hres : Solid (e.pySub b) := by
      cases e with
      | const n => exact absurd rfl (hs.not_const n)
      | _ =>
        cases b with
        | int n => exact hsub _ _
        | expr e' =>
          cases e' with
          | const n =>
            rw [Expr.pySub]
            · split_ifs
              · exact hs
              · exact hsub _ _
            · intro v hv; cases hv
          | _ => exact hsub _ _
    cases g <;> exact ⟨_, rfl, hres⟩

theorem FoldsTo.mul (ha : FoldsTo f a) (hb : FoldsTo g b) : FoldsTo (f.mul g) (a.mul b) := by
  obtain ⟨hcc, h2⟩ := makeAcc_fits .prod ha hb
  simp only [true_and] at h2
  -- a constant before something
  have hc : ∀ (m : Int) (o : Obj), (∀ n, o = .expr (.const n) → (Expr.const m).pyMul o = .const (m * n)) ∧
      ((∀ n, o ≠ .expr (.const n)) → (Expr.const m).pyMul o = if m = 0 then .const 0 else if m = 1 then coerce o else makeProd (.expr (.const m)) o) := by
    intro m o
    constructor
    · rintro n rfl
      rw [Expr.pyMul]
      split_ifs with h0 h1
      · rw [h0, Int.zero_mul]
      · rw [h1, Int.one_mul]; rfl
      · rfl
    · intro ho
      rw [Expr.pyMul]
      · split_ifs with h0 h1
        · rw [h0]
        · rfl
        · rfl
      · exact ho
  have hform : ∀ (m : Int) (e : Expr), Solid e → (m ≠ 0 → Solid (makeProd (.expr (.const m)) (.expr e))) →
      FoldsTo (if m = 0 then .constant 0 else .formula) (.expr ((Expr.const m).pyMul (.expr e))) := by
    intro m e hs hp
    rw [(hc m (.expr e)).2 (fun n hn => by cases hn; exact hs.not_const n rfl)]
    split_ifs with h0 h1
    · rfl
    · exact ⟨e, rfl, hs⟩
    · exact ⟨_, rfl, hp h0⟩
  cases f with
  | number m =>
    cases ha
    cases g with
    | number n => cases hb; rfl
    | constant n => cases hb; exact congrArg Obj.expr ((hc m _).1 n rfl)
    | formula =>
      obtain ⟨e, rfl, hs⟩ := hb
      refine hform m e hs (fun h0 => ?_)
      have := h2 (.inr rfl)
      rw [if_neg (by simp [Folded.value?, h0])] at this
      exact this
  | constant m =>
    cases ha
    cases g with
    | number n =>
      cases hb
      show Obj.expr ((Expr.const m).pyMul (.int n)) = .expr (.const (m * n))
      rw [(hc m (.int n)).2 (fun n hn => by cases hn)]
      split_ifs with h0 h1
      · rw [h0, Int.zero_mul]
      · rw [h1, Int.one_mul]; rfl
      · exact congrArg Obj.expr (hcc m n rfl rfl)
    | constant n => cases hb; exact congrArg Obj.expr ((hc m _).1 n rfl)
    | formula =>
      obtain ⟨e, rfl, hs⟩ := hb
      refine hform m e hs (fun h0 => ?_)
      have := h2 (.inr rfl)
      rw [if_neg (by simp [Folded.value?, h0])] at this
      exact this
  | formula =>
    obtain ⟨e, rfl, hs⟩ := ha
    have hsol := h2 (.inl rfl)
    cases g with
    | number n =>
      cases hb
      have hm : Obj.mul (.expr e) (.int n) = .expr (makeProd (.expr e) (.int n)) := by
        cases e with
        | const n => exact absurd rfl (hs.not_const n)
        | _ => rfl
      rw [hm]
      show FoldsTo (if n = 0 then .constant 0 else .formula) _
      by_cases h0 : n = 0
      · rw [if_pos (.inr (by rw [h0]; rfl))] at hsol
        rw [if_pos h0]
        exact congrArg Obj.expr hsol
      · rw [if_neg (by simp [Folded.value?, h0])] at hsol
        rw [if_neg h0]
        exact ⟨_, rfl, hsol⟩
    | constant n =>
      cases hb
      have hm : Obj.mul (.expr e) (.expr (.const n)) = .expr (if n = 0 then .const n else if n = 1 then e else makeProd (.expr e) (.expr (.const n))) := by
        cases e with
        | const n => exact absurd rfl (hs.not_const n)
        | _ => rfl
      rw [hm]
      show FoldsTo (if n = 0 then .constant 0 else .formula) _
      split_ifs with h0 h1
      · rw [h0]; rfl
      · exact ⟨e, rfl, hs⟩
      · rw [if_neg (by simp [Folded.value?, h0])] at hsol
        exact ⟨_, rfl, hsol⟩
    | formula =>
      obtain ⟨e', rfl, hs'⟩ := hb
      rw [if_neg (by simp [Folded.value?])] at hsol
      have hm : Obj.mul (.expr e) (.expr e') = .expr (makeProd (.expr e) (.expr e')) := by
        cases e with
        | const n => exact absurd rfl (hs.not_const n)
        | _ =>
          cases e' with
          | const n => exact absurd rfl (hs'.not_const n)
          | _ => rfl
      rw [hm]
      exact ⟨_, rfl, hsol⟩

end

theorem FoldsTo.constant {f : Folded} {o : Obj} {m : Int} (h : FoldsTo f o) (ho : o = .expr (.const m)) : ∃ n, f = .constant n := by
  subst ho
  cases f with
  | number n => cases h
  | constant n => exact ⟨n, rfl⟩
  | formula => obtain ⟨e, he, hs⟩ := h; cases he; exact absurd rfl (hs.not_const m)

/-- `sum` of formulas is 0 or a formula. -/
theorem pySum_not_const {os : List Obj} (h : ∀ o ∈ os, FoldsTo .formula o) (m : Int) : Obj.pySum os ≠ .expr (.const m) := by
  have gen : ∀ (os : List Obj) (a : Obj), (FoldsTo (.number 0) a ∨ FoldsTo .formula a) → (∀ o ∈ os, FoldsTo .formula o) →
      FoldsTo (.number 0) (os.foldl Obj.add a) ∨ FoldsTo .formula (os.foldl Obj.add a) := by
    intro os
    induction os with
    | nil => intro a ha _; exact ha
    | cons o os ih =>
      intro a ha h
      refine ih _ ?_ (fun x hx => h x (by simp [hx]))
      rcases ha with ha | ha
      · exact .inr (ha.add (h o (by simp)))
      · exact .inr (ha.add (h o (by simp)))
  rcases gen os (.int 0) (.inl rfl) h with hs | ⟨e, hs, hn⟩
  · have hs : Obj.pySum os = .int 0 := hs
    rw [hs]; simp
  · have hs : Obj.pySum os = .expr e := hs
    rw [hs]
    intro he
    cases he
    exact hn.not_const m rfl

end Satisfy
