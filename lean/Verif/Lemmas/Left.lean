import Verif.Lemmas.Bound
/-! What branch and bound leaves out, for any objective. -/

namespace Satisfy

/-- What the search needs. `names`: the variables in the order of the search; `V`: the variables of the objective. Values are only left out when the
last variable of the objective is bound, and exactly if the bound is at least as good. -/
structure LB {S : Type} (cand : S → Name → Subst → Res (List Int)) (act : S → Subst → Res S) (names : List Name) (o : Objective)
    (P : Name → Subst → Int → Prop) (Q : Subst → Prop) (Good : S → Prop) (bnd : S → Option Int) (val : Subst → Int) (V : List Name) : Prop where
  act_ok : ∀ s τ s', Good s → Q τ → (∀ y ∈ names, τ.get? y ≠ none) → act s τ = .ok s' → Good s' ∧ bnd s' = some (val τ)
  keepQ : ∀ x σ v, Q σ → P x σ v → Q (σ.set x v)
  sub : ∀ y ∈ V, y ∈ names
  val_congr : ∀ σ τ : Subst, (∀ y ∈ V, σ.get? y = τ.get? y) → val σ = val τ
  cand_ok : ∀ s pre x post σ vs, names = pre ++ x :: post → (∀ y, σ.get? y ≠ none ↔ y ∈ pre) → Good s → Q σ → cand s x σ = .ok vs →
    ∀ v, v ∈ vs ↔ P x σ v ∧ (x ∈ V → (∀ y ∈ V, y ≠ x → y ∈ pre) → ∀ B, bnd s = some B → ¬ o.le B (val (σ.set x v)))

section
variable {S : Type} {cand : S → Name → Subst → Res (List Int)} {act : S → Subst → Res S} {names : List Name} {o : Objective}
  {P : Name → Subst → Int → Prop} {Q : Subst → Prop} {Good : S → Prop} {bnd : S → Option Int} {val : Subst → Int} {V : List Name}

/-- **Nothing better than the final bound is left out.** -/
theorem LB.main (h : LB cand act names o P Q Good bnd val V) (hnd : names.Nodup) (xs : List Name) :
    ∀ (pre : List Name) (σ : Subst) (s s' : S), names = pre ++ xs → (∀ y, σ.get? y ≠ none ↔ y ∈ pre) → Q σ → Good s →
      (dfs cand act xs σ s).2 = .ok s' →
      Good s' ∧ ((∀ y ∈ V, y ∈ pre) → bnd s' = bnd s ∨ bnd s' = some (val σ)) ∧
      ((¬ ∀ y ∈ V, y ∈ pre) → Improves o (bnd s') (bnd s)) ∧
      ∀ τ, Path P xs σ τ → τ ∈ (dfs cand act xs σ s).1 ∨ ((¬ ∀ y ∈ V, y ∈ pre) ∧ AtLeast o (bnd s') (val τ)) := by
  induction xs with
  | nil =>
    intro pre σ s s' hn hk hQ hG hd
    rw [List.append_nil] at hn
    subst hn
    obtain ⟨h1, h2⟩ := h.act_ok s σ s' hG hQ (fun y hy => (hk y).2 hy) hd
    exact ⟨h1, fun _ => .inr h2, fun hc => absurd h.sub hc, fun τ hp => by cases hp; exact .inl (by simp [dfs])⟩
  | cons x xs ih =>
    intro pre σ s s' hn hk hQ hG hd
    have hxpre : x ∉ pre := by
      rw [hn] at hnd
      intro hx
      exact (List.nodup_append.1 hnd).2.2 x hx x (by simp) rfl
    rw [dfs] at hd ⊢
    cases hv : cand s x σ with
    | error e => rw [hv] at hd; simp at hd
    | ok vs =>
      rw [hv] at hd
      simp only at hd ⊢
      have hmem := h.cand_ok s pre x xs σ vs hn hk hG hQ hv
      have hk' : ∀ v y, (σ.set x v).get? y ≠ none ↔ y ∈ pre ++ [x] := by
        intro v y
        by_cases hy : y = x
        · subst hy; simp [Dict.get?_set]
        · rw [Dict.get?_set_ne _ _ (Ne.symm hy), hk y]; simp [hy]
      have hn' : names = pre ++ [x] ++ xs := by rw [hn]; simp
      have loop : ∀ (ws : List Int), (∀ v ∈ ws, P x σ v) → ∀ s, Good s →
          (dfsVals (fun v s => dfs cand act xs (σ.set x v) s) ws s).2 = .ok s' →
          Good s' ∧ ((∀ y ∈ V, y ∈ pre ++ [x]) → bnd s' = bnd s ∨ ∃ v ∈ ws, bnd s' = some (val (σ.set x v))) ∧
          ((¬ ∀ y ∈ V, y ∈ pre ++ [x]) → Improves o (bnd s') (bnd s)) ∧
          ∀ v ∈ ws, ∀ τ, Path P xs (σ.set x v) τ → τ ∈ (dfsVals (fun v s => dfs cand act xs (σ.set x v) s) ws s).1 ∨
            ((¬ ∀ y ∈ V, y ∈ pre ++ [x]) ∧ AtLeast o (bnd s') (val τ)) := by
        intro ws
        induction ws with
        | nil =>
          intro _ s hG hd
          simp only [dfsVals, Except.ok.injEq] at hd ⊢
          subst hd
          exact ⟨hG, fun _ => .inl rfl, fun _ => .refl _ _, by simp⟩
        | cons v ws ihw =>
          intro hP s hG hd
          rw [dfsVals] at hd ⊢
          cases hf : dfs cand act xs (σ.set x v) s with
          | mk ou r =>
            rw [hf] at hd
            cases r with
            | error e => simp at hd
            | ok s1 =>
              simp only at hd ⊢
              obtain ⟨g1, g2, g3, g4⟩ := ih (pre ++ [x]) (σ.set x v) s s1 hn' (hk' v) (h.keepQ x σ v hQ (hP v (by simp))) hG (by rw [hf])
              rw [hf] at g4
              obtain ⟨k1, k2, k3, k4⟩ := ihw (fun u hu => hP u (by simp [hu])) s1 g1 hd
              refine ⟨k1, fun hc => ?_, fun hc => (g3 hc).trans (k3 hc), fun u hu τ hp => ?_⟩
              · rcases k2 hc with e | ⟨u, hu, e⟩
                · rw [e]
                  rcases g2 hc with e' | e'
                  · exact .inl e'
                  · exact .inr ⟨v, by simp, e'⟩
                · exact .inr ⟨u, by simp [hu], e⟩
              · rcases List.mem_cons.1 hu with rfl | hu
                · rcases g4 τ hp with hm | ⟨hc, ha⟩
                  · exact .inl (by simp [hm])
                  · exact .inr ⟨hc, ha.improve (k3 hc)⟩
                · rcases k4 u hu τ hp with hm | hc
                  · exact .inl (by simp [hm])
                  · exact .inr hc
      obtain ⟨l1, l2, l3, l4⟩ := loop vs (fun v hv => ((hmem v).1 hv).1) s hG hd
      have himp : (¬ ∀ y ∈ V, y ∈ pre) → Improves o (bnd s') (bnd s) := by
        intro hc
        by_cases hc' : ∀ y ∈ V, y ∈ pre ++ [x]
        · have hx : x ∈ V := by
            by_contra hx
            refine hc (fun y hy => ?_)
            have := hc' y hy
            have hne : y ≠ x := by rintro rfl; exact hx hy
            simpa [hne] using this
          have hrest : ∀ y ∈ V, y ≠ x → y ∈ pre := fun y hy hne => by
            have := hc' y hy
            simpa [hne] using this
          rcases l2 hc' with e | ⟨v, hv, e⟩
          · rw [e]; exact .refl _ _
          · exact fun B hB => ⟨_, e, o.le_total (((hmem v).1 hv).2 hx hrest B hB)⟩
        · exact l3 hc'
      refine ⟨l1, fun hc => ?_, himp, fun τ hp => ?_⟩
      · have hx : x ∉ V := fun hx => hxpre (hc x hx)
        rcases l2 (fun y hy => by simp [hc y hy]) with e | ⟨v, _, e⟩
        · exact .inl e
        · refine .inr ?_
          rw [e]
          congr 1
          exact h.val_congr _ _ (fun y hy => by rw [Dict.get?_set_ne _ _ (by rintro rfl; exact hx hy)])
      · cases hp with
        | @cons _ _ _ v _ hP hp =>
          by_cases hvs : v ∈ vs
          · rcases l4 v hvs τ hp with hm | ⟨hc, ha⟩
            · exact .inl hm
            · exact .inr ⟨fun hc' => hc (fun y hy => by simp [hc' y hy]), ha⟩
          · have : x ∈ V ∧ (∀ y ∈ V, y ≠ x → y ∈ pre) ∧ ∃ B, bnd s = some B ∧ o.le B (val (σ.set x v)) := by
              by_contra hno
              refine hvs ((hmem v).2 ⟨hP, fun hx hr B hB hle => hno ⟨hx, hr, B, hB, hle⟩⟩)
            obtain ⟨hx, hrest, B, hB, hle⟩ := this
            have hopen : ¬ ∀ y ∈ V, y ∈ pre := fun hc => hxpre (hc x hx)
            refine .inr ⟨hopen, ?_⟩
            have hval : val τ = val (σ.set x v) := h.val_congr _ _ (fun y hy => hp.old y (fun hyxs => by
              have hy' : y ∈ pre ++ [x] := by
                by_cases hyx : y = x
                · simp [hyx]
                · simp [hrest y hy hyx]
              rw [hn'] at hnd
              exact (List.nodup_append.1 hnd).2.2 y hy' y hyxs rfl))
            rw [hval]
            exact AtLeast.improve ⟨B, hB, hle⟩ (himp hopen)

/-- The bound after a search that handed out anything is the value of a solution handed out. -/
theorem LB.bound (h : LB cand act names o P Q Good bnd val V) (hnd : names.Nodup) (xs : List Name) :
    ∀ (pre : List Name) (σ : Subst) (s s' : S), names = pre ++ xs → (∀ y, σ.get? y ≠ none ↔ y ∈ pre) → Q σ → Good s →
      (dfs cand act xs σ s).2 = .ok s' →
      Good s' ∧ (((dfs cand act xs σ s).1 = [] ∧ s' = s) ∨ ∃ l ∈ (dfs cand act xs σ s).1, bnd s' = some (val l)) ∧
      ∀ τ ∈ (dfs cand act xs σ s).1, ∀ y ∈ pre, τ.get? y = σ.get? y := by
  induction xs with
  | nil =>
    intro pre σ s s' hn hk hQ hG hd
    rw [List.append_nil] at hn
    subst hn
    obtain ⟨h1, h2⟩ := h.act_ok s σ s' hG hQ (fun y hy => (hk y).2 hy) hd
    exact ⟨h1, .inr ⟨σ, by simp [dfs], h2⟩, fun τ hτ y _ => by simp [dfs] at hτ; rw [hτ]⟩
  | cons x xs ih =>
    intro pre σ s s' hn hk hQ hG hd
    rw [dfs] at hd ⊢
    cases hv : cand s x σ with
    | error e => rw [hv] at hd; simp at hd
    | ok vs =>
      rw [hv] at hd
      simp only at hd ⊢
      have hmem := h.cand_ok s pre x xs σ vs hn hk hG hQ hv
      have hk' : ∀ v y, (σ.set x v).get? y ≠ none ↔ y ∈ pre ++ [x] := by
        intro v y
        by_cases hy : y = x
        · subst hy; simp [Dict.get?_set]
        · rw [Dict.get?_set_ne _ _ (Ne.symm hy), hk y]; simp [hy]
      have hn' : names = pre ++ [x] ++ xs := by rw [hn]; simp
      have hP : ∀ v ∈ vs, P x σ v := fun v hv => ((hmem v).1 hv).1
      clear hmem hv
      induction vs generalizing s with
      | nil => simp only [dfsVals] at hd ⊢; cases hd; simp [hG]
      | cons v vs ihv =>
        rw [dfsVals] at hd ⊢
        cases hf : dfs cand act xs (σ.set x v) s with
        | mk ou r =>
          rw [hf] at hd
          cases r with
          | error e => simp at hd
          | ok s1 =>
            simp only at hd ⊢
            obtain ⟨g1, g2, g3⟩ := ih (pre ++ [x]) (σ.set x v) s s1 hn' (hk' v) (h.keepQ x σ v hQ (hP v (by simp))) hG (by rw [hf])
            rw [hf] at g2 g3
            obtain ⟨k1, k2, k3⟩ := ihv s1 g1 hd (fun u hu => hP u (by simp [hu]))
            refine ⟨k1, ?_, fun τ hτ y hy => ?_⟩
            · rcases k2 with ⟨e1, e2⟩ | ⟨l, hl, e⟩
              · rw [e1, List.append_nil, e2]; exact g2
              · exact .inr ⟨l, by simp [hl], e⟩
            · rcases List.mem_append.1 hτ with ht | ht
              · have hne : x ≠ y := by
                  rintro rfl
                  rw [hn] at hnd
                  exact (List.nodup_append.1 hnd).2.2 x hy x (by simp) rfl
                rw [g3 τ ht y (by simp [hy]), Dict.get?_set_ne _ _ hne]
              · exact k3 τ ht y hy

/-- **How far from the best the final bound can be**: for every solution handed out there is one that differs from it only at the last variable `z` of the
objective (and at variables that are not in the objective) and that is not better than the final bound. -/
theorem LB.near (h : LB cand act names o P Q Good bnd val V) (hnd : names.Nodup) {z : Name} (hz : z ∈ V) {front : List Name} {back : List Name}
    (hnames : names = front ++ z :: back) (hfront : ∀ y ∈ V, y ≠ z → y ∈ front) (xs : List Name) :
    ∀ (pre : List Name) (σ : Subst) (s s' : S), names = pre ++ xs → z ∈ xs → (∀ y, σ.get? y ≠ none ↔ y ∈ pre) → Q σ → Good s →
      (dfs cand act xs σ s).2 = .ok s' →
      ∀ τ ∈ (dfs cand act xs σ s).1, ∃ l ∈ (dfs cand act xs σ s).1, (∀ y ∈ V, y ≠ z → l.get? y = τ.get? y) ∧ AtLeast o (bnd s') (val l) := by
  induction xs with
  | nil => intro _ _ _ _ _ hz'; simp at hz'
  | cons x xs ih =>
    intro pre σ s s' hn hzx hk hQ hG hd τ hτ
    have hzpre : z ∉ pre := fun hzp => by
      rw [hn] at hnd
      exact (List.nodup_append.1 hnd).2.2 z hzp z hzx rfl
    by_cases hxz : x = z
    · subst hxz
      obtain ⟨_, h2, h3⟩ := h.bound hnd _ pre σ s s' hn hk hQ hG hd
      rcases h2 with ⟨e, _⟩ | ⟨l, hl, e⟩
      · rw [e] at hτ; simp at hτ
      · have hpre : pre = front := by
          rw [hnames] at hn hnd
          have hzf : x ∉ front := fun hx => (List.nodup_append.1 hnd).2.2 x hx x (by simp) rfl
          have hzb : x ∉ back := fun hx => (List.nodup_cons.1 (List.nodup_append.1 hnd).2.1).1 hx
          exact ((List.append_cons_inj_of_notMem hzf hzb).1 hn).1.symm
        subst hpre
        exact ⟨l, hl, fun y hy hne => by rw [h3 l hl y (hfront y hy hne), h3 τ hτ y (hfront y hy hne)], ⟨_, e, o.le_refl _⟩⟩
    · have hzxs : z ∈ xs := by rcases List.mem_cons.1 hzx with e | e; exact absurd e.symm hxz; exact e
      rw [dfs] at hd hτ ⊢
      cases hv : cand s x σ with
      | error e => rw [hv] at hd; simp at hd
      | ok vs =>
        rw [hv] at hd hτ
        simp only at hd hτ ⊢
        have hmem := h.cand_ok s pre x xs σ vs hn hk hG hQ hv
        have hk' : ∀ v y, (σ.set x v).get? y ≠ none ↔ y ∈ pre ++ [x] := by
          intro v y
          by_cases hy : y = x
          · subst hy; simp [Dict.get?_set]
          · rw [Dict.get?_set_ne _ _ (Ne.symm hy), hk y]; simp [hy]
        have hn' : names = pre ++ [x] ++ xs := by rw [hn]; simp
        have hopen : ¬ ∀ y ∈ V, y ∈ pre ++ [x] := fun hc => by
          have := hc z hz
          simp [hzpre, Ne.symm hxz] at this
        have hP : ∀ v ∈ vs, P x σ v := fun v hv => ((hmem v).1 hv).1
        clear hmem hv
        suffices hloop : Improves o (bnd s') (bnd s) ∧ ∀ τ ∈ (dfsVals (fun v s => dfs cand act xs (σ.set x v) s) vs s).1,
            ∃ l ∈ (dfsVals (fun v s => dfs cand act xs (σ.set x v) s) vs s).1, (∀ y ∈ V, y ≠ z → l.get? y = τ.get? y) ∧ AtLeast o (bnd s') (val l) from
          hloop.2 τ hτ
        clear hτ τ
        induction vs generalizing s with
        | nil => simp only [dfsVals] at hd ⊢; cases hd; exact ⟨.refl _ _, by simp⟩
        | cons v vs ihv =>
          rw [dfsVals] at hd ⊢
          cases hf : dfs cand act xs (σ.set x v) s with
          | mk ou r =>
            rw [hf] at hd
            cases r with
            | error e => simp at hd
            | ok s1 =>
              simp only at hd ⊢
              have hQ' := h.keepQ x σ v hQ (hP v (by simp))
              obtain ⟨g1, _, g3, _⟩ := h.main hnd xs (pre ++ [x]) (σ.set x v) s s1 hn' (hk' v) hQ' hG (by rw [hf])
              have hih := ih (pre ++ [x]) (σ.set x v) s s1 hn' hzxs (hk' v) hQ' hG (by rw [hf])
              rw [hf] at hih
              obtain ⟨k1, k2⟩ := ihv s1 g1 hd (fun u hu => hP u (by simp [hu]))
              refine ⟨(g3 hopen).trans k1, fun τ hτ => ?_⟩
              rcases List.mem_append.1 hτ with ht | ht
              · obtain ⟨l, hl, e1, e2⟩ := hih τ ht
                exact ⟨l, by simp [hl], e1, e2.improve k1⟩
              · obtain ⟨l, hl, e1, e2⟩ := k2 τ ht
                exact ⟨l, by simp [hl], e1, e2⟩

end

end Satisfy
