import Verif.SpecOptimize
import Verif.Lemmas.Dfs
/-!
Branch and bound as `optimize` does it: the candidates of one variable, `xj`, are filtered by the bound at
the moment they are listed; every solution overwrites the bound with its value.  If the value never gets worse along
the list of candidates, the bound ends up optimal.
-/

namespace Satisfy

theorem Objective.le_refl (o : Objective) (a : Int) : o.le a a := by unfold Objective.le; split <;> omega
theorem Objective.le_trans (o : Objective) {a b c : Int} (h1 : o.le a b) (h2 : o.le b c) : o.le a c := by
  unfold Objective.le at *; split at h1 <;> simp_all <;> omega
theorem Objective.le_total (o : Objective) {a b : Int} (h : ¬ o.le a b) : o.le b a := by
  unfold Objective.le at *; split at h <;> simp_all <;> omega

/-- The bound is at least as good as `v`. -/
def AtLeast (o : Objective) (b : Option Int) (v : Int) : Prop := ∃ B, b = some B ∧ o.le B v
/-- The bound `b'` is at least as good as `b`. -/
def Improves (o : Objective) (b' b : Option Int) : Prop := ∀ B, b = some B → AtLeast o b' B

theorem Improves.refl (o : Objective) (b : Option Int) : Improves o b b := fun B hB => ⟨B, hB, o.le_refl B⟩
theorem AtLeast.improve {o : Objective} {b b' : Option Int} {v : Int} (h : AtLeast o b v) (hi : Improves o b' b) : AtLeast o b' v := by
  obtain ⟨B, hB, hv⟩ := h
  obtain ⟨B', hB', hv'⟩ := hi B hB
  exact ⟨B', hB', o.le_trans hv' hv⟩
theorem Improves.trans {o : Objective} {b b' b'' : Option Int} (h1 : Improves o b' b) (h2 : Improves o b'' b') : Improves o b'' b :=
  fun B hB => (h1 B hB).improve h2

/-- What the search needs. `P`: acceptance by the other constraints; `Q`: invariant of partial assignments;
`Good`: invariant of the state; `V`: the variables of the objective. -/
structure BB0 {S : Type} (cand : S → Name → Subst → Res (List Int)) (act : S → Subst → Res S) (o : Objective)
    (P : Name → Subst → Int → Prop) (Q : Subst → Prop) (Good : S → Prop) (bnd : S → Option Int) (val : Subst → Int)
    (V : List Name) (xj : Name) : Prop where
  act_ok : ∀ s τ s', Good s → Q τ → (∀ y ∈ V, τ.get? y ≠ none) → act s τ = .ok s' → Good s' ∧ bnd s' = some (val τ)
  keepQ : ∀ x σ v, Q σ → P x σ v → Q (σ.set x v)
  val_congr : ∀ σ τ, (∀ y ∈ V, σ.get? y = τ.get? y) → val σ = val τ
  cand_free : ∀ s x σ vs, Good s → (x ∉ V ∨ (x ≠ xj ∧ σ.get? xj = none)) → cand s x σ = .ok vs → ∀ v, v ∈ vs ↔ P x σ v

/-- … and at `xj` the candidates are filtered by the bound. -/
structure BB {S : Type} (cand : S → Name → Subst → Res (List Int)) (act : S → Subst → Res S) (o : Objective)
    (P : Name → Subst → Int → Prop) (Q : Subst → Prop) (Good : S → Prop) (bnd : S → Option Int) (val : Subst → Int)
    (V : List Name) (xj : Name) : Prop extends BB0 cand act o P Q Good bnd val V xj where
  cand_last : ∀ s σ vs, Good s → Q σ → (∀ y ∈ V, y ≠ xj → σ.get? y ≠ none) → σ.get? xj = none → cand s xj σ = .ok vs →
    (∀ v, v ∈ vs ↔ P xj σ v ∧ ∀ B, bnd s = some B → ¬ o.le B (val (σ.set xj v))) ∧
    vs.Pairwise (fun v w => o.le (val (σ.set xj w)) (val (σ.set xj v)))

section
variable {S : Type} {cand : S → Name → Subst → Res (List Int)} {act : S → Subst → Res S} {o : Objective}
  {P : Name → Subst → Int → Prop} {Q : Subst → Prop} {Good : S → Prop} {bnd : S → Option Int} {val : Subst → Int}
  {V : List Name} {xj : Name}

/-- Below the last variable of the objective: all solutions have the same value. -/
theorem BB0.below (h : BB0 cand act o P Q Good bnd val V xj) (xs : List Name) (hxs : ∀ x ∈ xs, x ∉ V) :
    ∀ (σ : Subst) (s s' : S), Q σ → Good s → (∀ y ∈ V, σ.get? y ≠ none) → (dfs cand act xs σ s).2 = .ok s' →
      Good s' ∧ ((∃ τ, Path P xs σ τ) → bnd s' = some (val σ)) ∧ ((¬ ∃ τ, Path P xs σ τ) → bnd s' = bnd s) := by
  induction xs with
  | nil =>
    intro σ s s' hQ hG hb hd
    obtain ⟨h1, h2⟩ := h.act_ok s σ s' hG hQ hb hd
    exact ⟨h1, fun _ => h2, fun hn => absurd ⟨σ, .nil σ⟩ hn⟩
  | cons x xs ih =>
    intro σ s s' hQ hG hb hd
    rw [dfs] at hd
    cases hv : cand s x σ with
    | error e => rw [hv] at hd; simp at hd
    | ok vs =>
      rw [hv] at hd
      simp only at hd
      have hx : x ∉ V := hxs x (by simp)
      have hmem := h.cand_free s x σ vs hG (.inl hx) hv
      have loop : ∀ (ws : List Int), (∀ v ∈ ws, P x σ v) → ∀ s s', Good s →
          (dfsVals (fun v s => dfs cand act xs (σ.set x v) s) ws s).2 = .ok s' →
          Good s' ∧ ((∃ v ∈ ws, ∃ τ, Path P xs (σ.set x v) τ) → bnd s' = some (val σ)) ∧
            ((¬ ∃ v ∈ ws, ∃ τ, Path P xs (σ.set x v) τ) → bnd s' = bnd s) := by
        intro ws
        induction ws with
        | nil =>
          intro _ s s' hG hd
          simp only [dfsVals] at hd; cases hd
          exact ⟨hG, by simp, fun _ => rfl⟩
        | cons v ws ihw =>
          intro hP s s' hG hd
          rw [dfsVals] at hd
          cases hf : dfs cand act xs (σ.set x v) s with
          | mk ou r =>
            rw [hf] at hd
            cases r with
            | error e => simp at hd
            | ok s1 =>
              simp only at hd
              have hval : val (σ.set x v) = val σ := h.val_congr _ _ (fun y hy => by
                rw [Dict.get?_set_ne _ _ (by rintro rfl; exact hx hy)])
              obtain ⟨g1, g2, g3⟩ := ih (fun y hy => hxs y (by simp [hy])) (σ.set x v) s s1
                (h.keepQ x σ v hQ (hP v (by simp))) hG
                (fun y hy => by rw [Dict.get?_set_ne _ _ (by rintro rfl; exact hx hy)]; exact hb y hy) (by rw [hf])
              obtain ⟨k1, k2, k3⟩ := ihw (fun w hw => hP w (by simp [hw])) s1 s' g1 hd
              refine ⟨k1, ?_, ?_⟩
              · rintro ⟨w, hw, hp⟩
                by_cases hl : ∃ v ∈ ws, ∃ τ, Path P xs (σ.set x v) τ
                · exact k2 hl
                · rw [k3 hl]
                  rcases List.mem_cons.1 hw with rfl | hw
                  · rw [g2 hp, hval]
                  · exact absurd ⟨w, hw, hp⟩ hl
              · intro hn
                rw [k3 (fun ⟨w, hw, hp⟩ => hn ⟨w, by simp [hw], hp⟩), g3 (fun hp => hn ⟨v, by simp, hp⟩)]
      obtain ⟨l1, l2, l3⟩ := loop vs (fun v hv => (hmem v).1 hv) s s' hG hd
      refine ⟨l1, ?_, ?_⟩
      · rintro ⟨τ, hp⟩
        cases hp with
        | cons hP hp => exact l2 ⟨_, (hmem _).2 hP, _, hp⟩
      · intro hn
        exact l3 (fun ⟨v, hv, τ, hp⟩ => hn ⟨τ, .cons ((hmem v).1 hv) hp⟩)

/-- At the last variable of the objective. -/
theorem BB0.atLast (h : BB0 cand act o P Q Good bnd val V xj) (post : List Name) (hpost : ∀ x ∈ post, x ∉ V) (σ : Subst) (s s' : S)
    (hQ : Q σ) (hG : Good s) (hb : ∀ y ∈ V, y ≠ xj → σ.get? y ≠ none)
    (hl : ∀ vs, cand s xj σ = .ok vs → (∀ v, v ∈ vs ↔ P xj σ v ∧ ∀ B, bnd s = some B → ¬ o.le B (val (σ.set xj v))) ∧
      vs.Pairwise (fun v w => o.le (val (σ.set xj w)) (val (σ.set xj v))))
    (hd : (dfs cand act (xj :: post) σ s).2 = .ok s') :
    Good s' ∧ Improves o (bnd s') (bnd s) ∧ ∀ τ, Path P (xj :: post) σ τ → AtLeast o (bnd s') (val τ) := by
  rw [dfs] at hd
  cases hv : cand s xj σ with
  | error e => rw [hv] at hd; simp at hd
  | ok vs =>
    rw [hv] at hd
    simp only at hd
    obtain ⟨hmem, hmono⟩ := hl vs hv
    have loop : ∀ (ws : List Int), (∀ v ∈ ws, P xj σ v) → ws.Pairwise (fun v w => o.le (val (σ.set xj w)) (val (σ.set xj v))) →
        ∀ s s', Good s →
        (dfsVals (fun v s => dfs cand act post (σ.set xj v) s) ws s).2 = .ok s' →
        Good s' ∧ ((¬ ∃ v ∈ ws, ∃ τ, Path P post (σ.set xj v) τ) → bnd s' = bnd s) ∧
          ((∃ v ∈ ws, ∃ τ, Path P post (σ.set xj v) τ) → ∃ v ∈ ws, bnd s' = some (val (σ.set xj v))) ∧
          ∀ v ∈ ws, (∃ τ, Path P post (σ.set xj v) τ) → AtLeast o (bnd s') (val (σ.set xj v)) := by
      intro ws
      induction ws with
      | nil =>
        intro _ _ s s' hG hd
        simp only [dfsVals] at hd; cases hd
        exact ⟨hG, fun _ => rfl, by simp, by simp⟩
      | cons v ws ihw =>
        intro hP hmono s s' hG hd
        rw [dfsVals] at hd
        cases hf : dfs cand act post (σ.set xj v) s with
        | mk ou r =>
          rw [hf] at hd
          cases r with
          | error e => simp at hd
          | ok s1 =>
            simp only at hd
            obtain ⟨g1, g2, g3⟩ := h.below post hpost (σ.set xj v) s s1
              (h.keepQ xj σ v hQ (hP v (by simp))) hG
              (fun y hy => by
                by_cases hyx : y = xj
                · subst hyx; simp [Dict.get?_set]
                · rw [Dict.get?_set_ne _ _ (Ne.symm hyx)]; exact hb y hy hyx) (by rw [hf])
            rw [List.pairwise_cons] at hmono
            obtain ⟨k1, k2, k3, k4⟩ := ihw (fun w hw => hP w (by simp [hw])) hmono.2 s1 s' g1 hd
            refine ⟨k1, ?_, ?_, ?_⟩
            · intro hn
              rw [k2 (fun ⟨w, hw, hp⟩ => hn ⟨w, by simp [hw], hp⟩), g3 (fun hp => hn ⟨v, by simp, hp⟩)]
            · rintro ⟨w, hw, hp⟩
              by_cases hl : ∃ v ∈ ws, ∃ τ, Path P post (σ.set xj v) τ
              · obtain ⟨u, hu, he⟩ := k3 hl
                exact ⟨u, by simp [hu], he⟩
              · rcases List.mem_cons.1 hw with rfl | hw
                · exact ⟨w, by simp, by rw [k2 hl, g2 hp]⟩
                · exact absurd ⟨w, hw, hp⟩ hl
            · intro w hw hp
              rcases List.mem_cons.1 hw with rfl | hw
              · by_cases hl : ∃ v ∈ ws, ∃ τ, Path P post (σ.set xj v) τ
                · obtain ⟨u, hu, he⟩ := k3 hl
                  exact ⟨_, he, hmono.1 u hu⟩
                · exact ⟨_, by rw [k2 hl, g2 hp], o.le_refl _⟩
              · exact k4 w hw hp
    obtain ⟨l1, l2, l3, l4⟩ := loop vs (fun v hv => ((hmem v).1 hv).1) hmono s s' hG hd
    have himp : Improves o (bnd s') (bnd s) := by
      intro B hB
      by_cases hl : ∃ v ∈ vs, ∃ τ, Path P post (σ.set xj v) τ
      · obtain ⟨v, hv, he⟩ := l3 hl
        exact ⟨_, he, o.le_total (((hmem v).1 hv).2 B hB)⟩
      · rw [l2 hl]; exact ⟨B, hB, o.le_refl B⟩
    refine ⟨l1, himp, ?_⟩
    intro τ hp
    cases hp with
    | @cons _ _ _ v _ hP hp =>
      have hval : val τ = val (σ.set xj v) := h.val_congr _ _ (fun y hy => hp.old y (fun hy' => hpost y hy' hy))
      rw [hval]
      by_cases hin : v ∈ vs
      · exact l4 v hin ⟨τ, hp⟩
      · rw [hmem] at hin
        simp only [not_and, not_forall, not_not] at hin
        obtain ⟨B, hB, hle⟩ := hin hP
        exact AtLeast.improve ⟨B, hB, hle⟩ himp

/-- **The bound is optimal at the end.** -/
theorem BB.optimal (h : BB cand act o P Q Good bnd val V xj) (post : List Name) (hpost : ∀ x ∈ post, x ∉ V) (pre : List Name) :
    ∀ (σ : Subst) (s s' : S), xj ∉ pre → Q σ → Good s → (∀ y ∈ V, y ≠ xj → y ∉ pre → σ.get? y ≠ none) → σ.get? xj = none →
      (dfs cand act (pre ++ xj :: post) σ s).2 = .ok s' →
      Good s' ∧ Improves o (bnd s') (bnd s) ∧ ∀ τ, Path P (pre ++ xj :: post) σ τ → AtLeast o (bnd s') (val τ) := by
  induction pre with
  | nil =>
    intro σ s s' _ hQ hG hb hj hd
    have hb' : ∀ y ∈ V, y ≠ xj → σ.get? y ≠ none := fun y hy hne => hb y hy hne (by simp)
    exact h.toBB0.atLast post hpost σ s s' hQ hG hb' (fun vs hv => h.cand_last s σ vs hG hQ hb' hj hv) hd
  | cons x pre ih =>
    intro σ s s' hxj hQ hG hb hj hd
    simp only [List.mem_cons, not_or] at hxj
    rw [List.cons_append, dfs] at hd
    cases hv : cand s x σ with
    | error e => rw [hv] at hd; simp at hd
    | ok vs =>
      rw [hv] at hd
      simp only at hd
      have hmem := h.cand_free s x σ vs hG (.inr ⟨Ne.symm hxj.1, hj⟩) hv
      have loop : ∀ (ws : List Int), (∀ v ∈ ws, P x σ v) → ∀ s s', Good s →
          (dfsVals (fun v s => dfs cand act (pre ++ xj :: post) (σ.set x v) s) ws s).2 = .ok s' →
          Good s' ∧ Improves o (bnd s') (bnd s) ∧
            ∀ v ∈ ws, ∀ τ, Path P (pre ++ xj :: post) (σ.set x v) τ → AtLeast o (bnd s') (val τ) := by
        intro ws
        induction ws with
        | nil =>
          intro _ s s' hG hd
          simp only [dfsVals] at hd; cases hd
          exact ⟨hG, .refl _ _, by simp⟩
        | cons v ws ihw =>
          intro hP s s' hG hd
          rw [dfsVals] at hd
          cases hf : dfs cand act (pre ++ xj :: post) (σ.set x v) s with
          | mk ou r =>
            rw [hf] at hd
            cases r with
            | error e => simp at hd
            | ok s1 =>
              simp only at hd
              obtain ⟨g1, g2, g3⟩ := ih (σ.set x v) s s1 hxj.2
                (h.keepQ x σ v hQ (hP v (by simp))) hG
                (fun y hy hne hnp => by
                  by_cases hyx : y = x
                  · subst hyx; simp [Dict.get?_set]
                  · rw [Dict.get?_set_ne _ _ (Ne.symm hyx)]; exact hb y hy hne (by simp [hyx, hnp]))
                (by rw [Dict.get?_set_ne _ _ (Ne.symm hxj.1)]; exact hj) (by rw [hf])
              obtain ⟨k1, k2, k3⟩ := ihw (fun w hw => hP w (by simp [hw])) s1 s' g1 hd
              refine ⟨k1, g2.trans k2, ?_⟩
              intro w hw τ hp
              rcases List.mem_cons.1 hw with rfl | hw
              · exact (g3 τ hp).improve k2
              · exact k3 w hw τ hp
      obtain ⟨l1, l2, l3⟩ := loop vs (fun v hv => (hmem v).1 hv) s s' hG hd
      refine ⟨l1, l2, ?_⟩
      intro τ hp
      rw [List.cons_append] at hp
      cases hp with
      | cons hP hp => exact l3 _ ((hmem _).2 hP) τ hp

end

section
variable {S : Type} {cand : S → Name → Subst → Res (List Int)} {act : S → Subst → Res S}

/-- The state after the search is what the consumer made of the last output. -/
theorem dfs_last (xs : List Name) : ∀ (σ : Subst) (s s' : S), (dfs cand act xs σ s).2 = .ok s' →
    ((dfs cand act xs σ s).1 = [] ∧ s' = s) ∨
    ∃ pre τ s1, (dfs cand act xs σ s).1 = pre ++ [τ] ∧ act s1 τ = .ok s' := by
  induction xs with
  | nil => intro σ s s' h; exact .inr ⟨[], σ, s, rfl, h⟩
  | cons x xs ih =>
    intro σ s s' hd
    rw [dfs] at hd ⊢
    cases hv : cand s x σ with
    | error e => rw [hv] at hd; simp at hd
    | ok vs =>
      rw [hv] at hd
      simp only at hd ⊢
      clear hv
      induction vs generalizing s with
      | nil => simp only [dfsVals] at hd ⊢; cases hd; simp
      | cons v vs ihv =>
        rw [dfsVals] at hd ⊢
        have := ih (σ.set x v) s
        cases hf : dfs cand act xs (σ.set x v) s with
        | mk ou r =>
          rw [hf] at hd this
          cases r with
          | error e => simp at hd
          | ok s1 =>
            simp only at hd this ⊢
            rcases ihv s1 hd with ⟨h1, h2⟩ | ⟨pre, τ, s2, h1, h2⟩
            · rw [h1, List.append_nil, h2]
              exact this s1 rfl
            · exact .inr ⟨ou ++ pre, τ, s2, by rw [h1, List.append_assoc], h2⟩

/-- Without outputs the consumer does not matter. -/
theorem dfs_no_output (act' : S → Subst → Res S) (xs : List Name) : ∀ (σ : Subst) (s : S), (dfs cand act xs σ s).1 = [] →
    dfs cand act xs σ s = dfs cand act' xs σ s := by
  induction xs with
  | nil => intro σ s h; simp [dfs] at h
  | cons x xs ih =>
    intro σ s h
    rw [dfs] at h ⊢
    rw [dfs]
    cases hv : cand s x σ with
    | error e => rfl
    | ok vs =>
      rw [hv] at h
      simp only at h ⊢
      clear hv
      induction vs generalizing s with
      | nil => rfl
      | cons v vs ihv =>
        rw [dfsVals] at h ⊢
        rw [dfsVals]
        have := ih (σ.set x v) s
        cases hf : dfs cand act xs (σ.set x v) s with
        | mk ou r =>
          rw [hf] at h this
          cases r with
          | error e =>
            simp only at h this
            rw [← this h]
          | ok s1 =>
            simp only [List.append_eq_nil_iff] at h this ⊢
            rw [← this h.1]
            simp only
            rw [ihv s1 h.2]

end

end Satisfy
