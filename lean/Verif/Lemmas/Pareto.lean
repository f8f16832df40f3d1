import Verif.Lemmas.Bound
/-! Branch and bound with several objectives. -/

namespace Satisfy

/-- What the search needs. `names`: the variables in the order of the search; `J`: the objectives; `V j`: the variables of objective `j`.
A bound is looked at when the last variable of the objective is bound. -/
structure MB {S ι : Type} (cand : S → Name → Subst → Res (List Int)) (act : S → Subst → Res S) (names : List Name) (J : List ι) (o : ι → Objective)
    (P : Name → Subst → Int → Prop) (Q : Subst → Prop) (Good : S → Prop) (bnd : ι → S → Option Int) (val : ι → Subst → Int)
    (V : ι → List Name) : Prop where
  act_ok : ∀ s τ s', Good s → Q τ → (∀ y ∈ names, τ.get? y ≠ none) → act s τ = .ok s' → Good s' ∧ ∀ j ∈ J, bnd j s' = some (val j τ)
  keepQ : ∀ x σ v, Q σ → P x σ v → Q (σ.set x v)
  sub : ∀ j ∈ J, ∀ y ∈ V j, y ∈ names
  val_congr : ∀ j ∈ J, ∀ σ τ : Subst, (∀ y ∈ V j, σ.get? y = τ.get? y) → val j σ = val j τ
  cand_ok : ∀ s pre x post σ vs, names = pre ++ x :: post → (∀ y, σ.get? y ≠ none ↔ y ∈ pre) → Good s → Q σ → cand s x σ = .ok vs →
    (∀ v, v ∈ vs ↔ P x σ v ∧ ∀ j ∈ J, x ∈ V j → (∀ y ∈ V j, y ≠ x → y ∈ pre) → ∀ B, bnd j s = some B → ¬ (o j).le B (val j (σ.set x v))) ∧
    ∀ j ∈ J, x ∈ V j → (∀ y ∈ V j, y ≠ x → y ∈ pre) → vs.Pairwise (fun v w => (o j).le (val j (σ.set x w)) (val j (σ.set x v)))

section
variable {S ι : Type} {cand : S → Name → Subst → Res (List Int)} {act : S → Subst → Res S} {names : List Name} {J : List ι} {o : ι → Objective}
  {P : Name → Subst → Int → Prop} {Q : Subst → Prop} {Good : S → Prop} {bnd : ι → S → Option Int} {val : ι → Subst → Int} {V : ι → List Name}

/-- What is known after a part of the search: from state `s` to the result `r`, with the solutions `outs`. -/
structure MBPost (J : List ι) (o : ι → Objective) (Good : S → Prop) (bnd : ι → S → Option Int) (val : ι → Subst → Int) (s : S)
    (outs : List Subst) (r : Res S) : Prop where
  better : ∀ τ ∈ outs, ∀ j ∈ J, ∀ B, bnd j s = some B → (o j).le (val j τ) B
  chain : outs.Pairwise (fun σ τ => ∀ j ∈ J, (o j).le (val j τ) (val j σ))
  good : ∀ s', r = .ok s' → Good s'
  improves : ∀ s', r = .ok s' → ∀ j ∈ J, Improves (o j) (bnd j s') (bnd j s)
  last : ∀ s', r = .ok s' → ∀ τ ∈ outs, ∀ j ∈ J, AtLeast (o j) (bnd j s') (val j τ)

theorem MBPost.empty {s : S} (hg : Good s) : MBPost J o Good bnd val s [] (.ok s) :=
  ⟨by simp, .nil, fun _ h => by cases h; exact hg, fun _ h => by cases h; exact fun j _ => .refl _ _, by simp⟩

/-- One part after another. -/
theorem MBPost.append {s s1 : S} {l1 l2 : List Subst} {r : Res S} (h1 : MBPost J o Good bnd val s l1 (.ok s1))
    (h2 : MBPost J o Good bnd val s1 l2 r) : MBPost J o Good bnd val s (l1 ++ l2) r := by
  have hi := h1.improves s1 rfl
  refine ⟨?_, ?_, h2.good, fun s' hs' j hj => (hi j hj).trans (h2.improves s' hs' j hj), ?_⟩
  · intro τ hτ j hj B hB
    rcases List.mem_append.1 hτ with hτ | hτ
    · exact h1.better τ hτ j hj B hB
    · obtain ⟨B', hB', hle⟩ := hi j hj B hB
      exact (o j).le_trans (h2.better τ hτ j hj B' hB') hle
  · refine List.pairwise_append.2 ⟨h1.chain, h2.chain, ?_⟩
    intro σ hσ τ hτ j hj
    obtain ⟨B', hB', hle⟩ := h1.last s1 rfl σ hσ j hj
    exact (o j).le_trans (h2.better τ hτ j hj B' hB') hle
  · intro s' hs' τ hτ j hj
    rcases List.mem_append.1 hτ with hτ | hτ
    · exact (h1.last s1 rfl τ hτ j hj).improve (h2.improves s' hs' j hj)
    · exact h2.last s' hs' τ hτ j hj

/-- **Several objectives.** The solutions never get worse in any objective; for every solution there is an objective in which the final
bound is at least as good. -/
theorem MB.main (h : MB cand act names J o P Q Good bnd val V) (hJ : J ≠ []) (hnd : names.Nodup) (xs : List Name) :
    ∀ (pre : List Name) (σ : Subst) (s : S), names = pre ++ xs → (∀ y, σ.get? y ≠ none ↔ y ∈ pre) → Q σ → Good s →
      (∀ j ∈ J, (∀ y ∈ V j, y ∈ pre) → ∀ B, bnd j s = some B → (o j).le (val j σ) B) →
      MBPost J o Good bnd val s (dfs cand act xs σ s).1 (dfs cand act xs σ s).2 ∧
      ∀ s', (dfs cand act xs σ s).2 = .ok s' →
        (∀ j ∈ J, (∀ y ∈ V j, y ∈ pre) → bnd j s' = bnd j s ∨ bnd j s' = some (val j σ)) ∧
        ∀ τ, Path P xs σ τ → ∃ j ∈ J, AtLeast (o j) (bnd j s') (val j τ) := by
  induction xs with
  | nil =>
    intro pre σ s hn hk hQ hG hpre
    rw [List.append_nil] at hn
    subst hn
    have hall : ∀ j ∈ J, ∀ y ∈ V j, y ∈ names := h.sub
    have hact : ∀ s', act s σ = .ok s' → Good s' ∧ ∀ j ∈ J, bnd j s' = some (val j σ) :=
      fun s' hs' => h.act_ok s σ s' hG hQ (fun y hy => (hk y).2 hy) hs'
    refine ⟨⟨?_, by simp [dfs], fun s' hs' => (hact s' hs').1, ?_, ?_⟩, ?_⟩
    · intro τ hτ j hj B hB
      simp only [dfs, List.mem_singleton] at hτ
      subst hτ
      exact hpre j hj (hall j hj) B hB
    · intro s' hs' j hj B hB
      exact ⟨_, (hact s' hs').2 j hj, hpre j hj (hall j hj) B hB⟩
    · intro s' hs' τ hτ j hj
      simp only [dfs, List.mem_singleton] at hτ
      subst hτ
      exact ⟨_, (hact s' hs').2 j hj, (o j).le_refl _⟩
    · intro s' hs'
      refine ⟨fun j hj _ => .inr ((hact s' hs').2 j hj), ?_⟩
      intro τ hτ
      cases hτ
      obtain ⟨j, hj⟩ := List.exists_mem_of_ne_nil _ hJ
      exact ⟨j, hj, _, (hact s' hs').2 j hj, (o j).le_refl _⟩
  | cons x xs ih =>
    intro pre σ s hn hk hQ hG hpre
    have hxpre : x ∉ pre := by
      rw [hn] at hnd
      intro hx
      exact (List.nodup_append.1 hnd).2.2 x hx x (by simp) rfl
    rw [dfs]
    cases hv : cand s x σ with
    | error e =>
      simp only
      exact ⟨⟨by simp, .nil, fun _ h => (by cases h), fun _ h => (by cases h), by simp⟩, fun _ h => (by cases h)⟩
    | ok vs =>
      simp only
      obtain ⟨hmem, hpw⟩ := h.cand_ok s pre x xs σ vs hn hk hG hQ hv
      have hk' : ∀ v y, (σ.set x v).get? y ≠ none ↔ y ∈ pre ++ [x] := by
        intro v y
        by_cases hy : y = x
        · subst hy; simp [Dict.get?_set]
        · rw [Dict.get?_set_ne _ _ (Ne.symm hy), hk y]; simp [hy]
      have hclosed : ∀ j ∈ J, (∀ y ∈ V j, y ∈ pre ++ [x]) → (x ∉ V j ∧ ∀ y ∈ V j, y ∈ pre) ∨ (x ∈ V j ∧ ∀ y ∈ V j, y ≠ x → y ∈ pre) := by
        intro j _ hc
        by_cases hx : x ∈ V j
        · refine .inr ⟨hx, fun y hy hne => ?_⟩
          have := hc y hy
          simpa [hne] using this
        · refine .inl ⟨hx, fun y hy => ?_⟩
          have := hc y hy
          have hne : y ≠ x := by rintro rfl; exact hx hy
          simpa [hne] using this
      have hsame : ∀ j ∈ J, x ∉ V j → ∀ v, val j (σ.set x v) = val j σ := fun j hj hx v =>
        h.val_congr j hj _ _ (fun y hy => by rw [Dict.get?_set_ne _ _ (by rintro rfl; exact hx hy)])
      -- going through the candidates; `s` is the state before each of them
      have loop : ∀ (ws : List Int), ws.Sublist vs → ∀ s, Good s →
          (∀ v ∈ ws, ∀ j ∈ J, (∀ y ∈ V j, y ∈ pre ++ [x]) → ∀ B, bnd j s = some B → (o j).le (val j (σ.set x v)) B) →
          MBPost J o Good bnd val s (dfsVals (fun v s => dfs cand act xs (σ.set x v) s) ws s).1
            (dfsVals (fun v s => dfs cand act xs (σ.set x v) s) ws s).2 ∧
          ∀ s', (dfsVals (fun v s => dfs cand act xs (σ.set x v) s) ws s).2 = .ok s' →
            (∀ j ∈ J, (∀ y ∈ V j, y ∈ pre) → bnd j s' = bnd j s ∨ bnd j s' = some (val j σ)) ∧
            ∀ v ∈ ws, ∀ τ, Path P xs (σ.set x v) τ → ∃ j ∈ J, AtLeast (o j) (bnd j s') (val j τ) := by
        intro ws
        induction ws with
        | nil =>
          intro _ s hG _
          simp only [dfsVals]
          exact ⟨.empty hG, fun s' hs' => by cases hs'; exact ⟨fun _ _ _ => .inl rfl, by simp⟩⟩
        | cons v ws ihw =>
          intro hsub s hG hpre
          have hP : P x σ v := ((hmem v).1 (hsub.mem (by simp))).1
          obtain ⟨g1, g2⟩ := ih (pre ++ [x]) (σ.set x v) s (by rw [hn]; simp) (hk' v) (h.keepQ x σ v hQ hP) hG (hpre v (by simp))
          rw [dfsVals]
          cases hf : dfs cand act xs (σ.set x v) s with
          | mk ou r =>
            rw [hf] at g1 g2
            cases r with
            | error e =>
              simp only at g1 ⊢
              exact ⟨⟨g1.better, g1.chain, fun _ h => (by cases h), fun _ h => (by cases h), fun _ h => (by cases h)⟩, fun _ h => (by cases h)⟩
            | ok s1 =>
              simp only at g1 g2 ⊢
              obtain ⟨g2, g3⟩ := g2 s1 rfl
              have hpre1 : ∀ u ∈ ws, ∀ j ∈ J, (∀ y ∈ V j, y ∈ pre ++ [x]) → ∀ B, bnd j s1 = some B → (o j).le (val j (σ.set x u)) B := by
                intro u hu j hj hc B hB
                rcases g2 j hj hc with h2 | h2
                · rw [h2] at hB; exact hpre u (by simp [hu]) j hj hc B hB
                · rw [h2] at hB; cases hB
                  rcases hclosed j hj hc with ⟨hx, _⟩ | ⟨hx, hc'⟩
                  · rw [hsame j hj hx, hsame j hj hx]; exact (o j).le_refl _
                  · have := (hpw j hj hx hc').sublist hsub
                    exact (List.pairwise_cons.1 this).1 u hu
              obtain ⟨k1, k2⟩ := ihw ((List.sublist_cons_self v ws).trans hsub) s1 (g1.good s1 rfl) hpre1
              refine ⟨g1.append k1, ?_⟩
              intro s' hs'
              obtain ⟨k2, k3⟩ := k2 s' hs'
              refine ⟨?_, ?_⟩
              · intro j hj hc
                rcases k2 j hj hc with e | e
                · have hx : x ∉ V j := fun hx => hxpre (hc x hx)
                  rw [e]
                  rcases g2 j hj (fun y hy => by simp [hc y hy]) with e' | e'
                  · exact .inl e'
                  · exact .inr (by rw [e', hsame j hj hx])
                · exact .inr e
              · intro u hu τ hp
                rcases List.mem_cons.1 hu with rfl | hu
                · obtain ⟨j, hj, ha⟩ := g3 τ hp
                  exact ⟨j, hj, ha.improve (k1.improves s' hs' j hj)⟩
                · exact k3 u hu τ hp
      have hstart : ∀ v ∈ vs, ∀ j ∈ J, (∀ y ∈ V j, y ∈ pre ++ [x]) → ∀ B, bnd j s = some B → (o j).le (val j (σ.set x v)) B := by
        intro v hv j hj hc B hB
        rcases hclosed j hj hc with ⟨hx, hc'⟩ | ⟨hx, hc'⟩
        · rw [hsame j hj hx]; exact hpre j hj hc' B hB
        · exact (o j).le_total (((hmem v).1 hv).2 j hj hx hc' B hB)
      obtain ⟨l1, l2⟩ := loop vs (List.Sublist.refl _) s hG hstart
      refine ⟨l1, fun s' hs' => ?_⟩
      obtain ⟨l2, l3⟩ := l2 s' hs'
      refine ⟨l2, ?_⟩
      intro τ hp
      cases hp with
      | @cons _ _ _ v _ hP hp =>
        by_cases hvs : v ∈ vs
        · exact l3 v hvs τ hp
        · -- pruned by some objective
          have : ∃ j ∈ J, x ∈ V j ∧ (∀ y ∈ V j, y ≠ x → y ∈ pre) ∧ ∃ B, bnd j s = some B ∧ (o j).le B (val j (σ.set x v)) := by
            by_contra hc
            refine hvs ((hmem v).2 ⟨hP, fun j hj hx hc' B hB hle => hc ⟨j, hj, hx, hc', B, hB, hle⟩⟩)
          obtain ⟨j, hj, hx, hc', B, hB, hle⟩ := this
          refine ⟨j, hj, ?_⟩
          have hval : val j τ = val j (σ.set x v) := h.val_congr j hj _ _ (fun y hy => by
            have hy' : y ∈ pre ++ [x] := by
              by_cases hyx : y = x
              · simp [hyx]
              · simp [hc' y hy hyx]
            exact hp.old y (by
              intro hyxs
              rw [hn] at hnd
              have : (pre ++ [x] ++ xs).Nodup := by simpa using hnd
              exact (List.nodup_append.1 this).2.2 y hy' y hyxs rfl))
          rw [hval]
          exact AtLeast.improve ⟨B, hB, hle⟩ (l1.improves s' hs' j hj)

end

end Satisfy
