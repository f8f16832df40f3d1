import Verif.Lemmas.Search
import Verif.SpecSolver
import Mathlib.Data.List.Nodup
/-! Properties of the recursive search, for any candidate function and consumer. -/

namespace Satisfy

variable {S : Type}

/-- `τ` extends `σ` by binding the variables in turn, each choice satisfying `P`. -/
inductive Path (P : Name → Subst → Int → Prop) : List Name → Subst → Subst → Prop
  | nil (σ) : Path P [] σ σ
  | cons {x xs σ v τ} : P x σ v → Path P xs (σ.set x v) τ → Path P (x :: xs) σ τ

section
variable {cand : S → Name → Subst → Res (List Int)} {act : S → Subst → Res S}

theorem dfsVals_sound {Inv : S → Prop} {Q : Int → Subst → Prop} {f : Int → S → List Subst × Res S}
    (vs : List Int) (hf : ∀ v ∈ vs, ∀ s, Inv s → (∀ τ ∈ (f v s).1, Q v τ) ∧ (∀ s', (f v s).2 = .ok s' → Inv s')) :
    ∀ s, Inv s → (∀ τ ∈ (dfsVals f vs s).1, ∃ v ∈ vs, Q v τ) ∧ (∀ s', (dfsVals f vs s).2 = .ok s' → Inv s') := by
  induction vs with
  | nil => intro s hs; exact ⟨by simp [dfsVals], by rintro s' h; simp only [dfsVals] at h; cases h; exact hs⟩
  | cons v vs ih =>
    intro s hs
    have h1 := hf v (by simp) s hs
    have ih := ih (fun w hw => hf w (by simp [hw]))
    rw [dfsVals]
    cases hv : f v s with
    | mk o r =>
      rw [hv] at h1
      cases r with
      | error e =>
        refine ⟨fun τ hτ => ⟨v, by simp, h1.1 τ hτ⟩, fun s' h => by simp at h⟩
      | ok s1 =>
        have h2 := ih s1 (h1.2 s1 rfl)
        refine ⟨fun τ hτ => ?_, h2.2⟩
        rcases List.mem_append.1 hτ with h | h
        · exact ⟨v, by simp, h1.1 τ h⟩
        · obtain ⟨w, hw, hq⟩ := h2.1 τ h
          exact ⟨w, by simp [hw], hq⟩

theorem dfs_sound {Inv : S → Prop} {P : Name → Subst → Int → Prop}
    (hact : ∀ s σ s', Inv s → act s σ = .ok s' → Inv s')
    (hc : ∀ s x σ vs, Inv s → cand s x σ = .ok vs → ∀ v ∈ vs, P x σ v) (xs : List Name) :
    ∀ σ s, Inv s → (∀ τ ∈ (dfs cand act xs σ s).1, Path P xs σ τ) ∧
      (∀ s', (dfs cand act xs σ s).2 = .ok s' → Inv s') := by
  induction xs with
  | nil =>
    intro σ s hs
    simp only [dfs, List.mem_singleton]
    exact ⟨by rintro τ rfl; exact .nil _, fun s' h => hact _ _ _ hs h⟩
  | cons x xs ih =>
    intro σ s hs
    rw [dfs]
    cases hv : cand s x σ with
    | error e => exact ⟨by simp, by simp⟩
    | ok vs =>
      have := dfsVals_sound (Inv := Inv) (Q := fun v τ => Path P xs (σ.set x v) τ)
        (f := fun v s => dfs cand act xs (σ.set x v) s) vs (fun v _ s hs => ih (σ.set x v) s hs) s hs
      refine ⟨fun τ hτ => ?_, this.2⟩
      obtain ⟨v, hv', hp⟩ := this.1 τ hτ
      exact .cons (hc s x σ vs hs hv v hv') hp

theorem dfsVals_complete {f : Int → S → List Subst × Res S} {s : S} (vs : List Int)
    (hf : ∀ v ∈ vs, ∀ s', (f v s).2 = .ok s' → s' = s) :
    ∀ s', (dfsVals f vs s).2 = .ok s' → s' = s ∧ ∀ v ∈ vs, (∀ τ ∈ (f v s).1, τ ∈ (dfsVals f vs s).1) ∧ (f v s).2 = .ok s := by
  induction vs with
  | nil => intro s' h; simp only [dfsVals] at h; cases h; simp
  | cons v vs ih =>
    intro s' h
    rw [dfsVals] at h ⊢
    cases hv : f v s with
    | mk o r =>
      rw [hv] at h
      cases r with
      | error e => simp at h
      | ok s1 =>
        have hs1 := hf v (by simp) s1 (by rw [hv])
        subst hs1
        obtain ⟨h1, h2⟩ := ih (fun w hw => hf w (by simp [hw])) s' h
        refine ⟨h1, fun w hw => ?_⟩
        rcases List.mem_cons.1 hw with rfl | hw
        · rw [hv]; exact ⟨fun τ hτ => List.mem_append_left _ hτ, rfl⟩
        · exact ⟨fun τ hτ => List.mem_append_right _ ((h2 w hw).1 τ hτ), (h2 w hw).2⟩

/-- If the consumer changes nothing and the search ends without exception, every path is found. -/
theorem dfs_complete {s : S} (hact : ∀ σ, act s σ = .ok s) (xs : List Name) :
    ∀ σ s', (dfs cand act xs σ s).2 = .ok s' → s' = s ∧
      ∀ τ, Path (fun x σ v => ∀ vs, cand s x σ = .ok vs → v ∈ vs) xs σ τ → τ ∈ (dfs cand act xs σ s).1 := by
  induction xs with
  | nil =>
    intro σ s' h
    simp only [dfs, hact] at h
    cases h
    refine ⟨rfl, fun τ hp => ?_⟩
    cases hp; simp [dfs]
  | cons x xs ih =>
    intro σ s' h
    rw [dfs] at h ⊢
    cases hv : cand s x σ with
    | error e => rw [hv] at h; simp at h
    | ok vs =>
      rw [hv] at h
      simp only at h ⊢
      obtain ⟨h1, h2⟩ := dfsVals_complete (f := fun v s => dfs cand act xs (σ.set x v) s) vs
        (fun v _ s' hs' => (ih (σ.set x v) s' hs').1) s' h
      refine ⟨h1, fun τ hp => ?_⟩
      cases hp with
      | cons hP hp =>
        rename_i v
        have hvm := hP vs hv
        obtain ⟨h3, h4⟩ := h2 v hvm
        exact h3 τ ((ih (σ.set x v) s h4).2 τ hp)

end

/-! ## Paths -/

variable {P : Name → Subst → Int → Prop}

theorem Path.mono {P' : Name → Subst → Int → Prop} (h : ∀ x σ v, P x σ v → P' x σ v) {xs σ τ}
    (hp : Path P xs σ τ) : Path P' xs σ τ := by
  induction hp with
  | nil σ => exact .nil σ
  | cons h1 _ ih => exact .cons (h _ _ _ h1) ih

theorem Path.old {xs σ τ} (hp : Path P xs σ τ) : ∀ y, y ∉ xs → τ.get? y = σ.get? y := by
  induction hp with
  | nil σ => intro y _; rfl
  | cons h1 _ ih =>
    intro y hy
    simp only [List.mem_cons, not_or] at hy
    rw [ih y hy.2, Dict.get?_set_ne _ _ (Ne.symm hy.1)]

theorem Path.keys {xs σ τ} (hp : Path P xs σ τ) : xs.Nodup → (∀ x ∈ xs, σ.get? x = none) → τ.keys = σ.keys ++ xs := by
  induction hp with
  | nil σ => intro _ _; simp
  | @cons x xs σ v τ h1 _ ih =>
    intro hn hf
    have hx : x ∉ xs := (List.nodup_cons.1 hn).1
    rw [ih (List.nodup_cons.1 hn).2, Dict.set_of_none _ _ _ (hf x (by simp)), Dict.keys_append]
    · simp [Dict.keys]
    · intro y hy
      rw [Dict.get?_set_ne _ _ (by rintro rfl; exact hx hy)]
      exact hf y (by simp [hy])

/-- Splitting a path at a variable. -/
theorem Path.at {xs σ τ} (hp : Path P xs σ τ) : xs.Nodup → (∀ x ∈ xs, σ.get? x = none) → ∀ x ∈ xs,
    ∃ pre post σ1 v, xs = pre ++ x :: post ∧ P x σ1 v ∧ σ1.get? x = none ∧ τ.get? x = some v ∧
      (∀ y, y ∉ x :: post → σ1.get? y = τ.get? y) ∧ (∀ y ∈ post, σ1.get? y = none) := by
  induction hp with
  | nil σ => intro _ _ x hx; simp at hx
  | @cons z xs σ v τ h1 hp ih =>
    intro hn hf x hx
    have hz : z ∉ xs := (List.nodup_cons.1 hn).1
    by_cases hxz : x = z
    · subst hxz
      refine ⟨[], xs, σ, v, rfl, h1, hf x (by simp), ?_, ?_, ?_⟩
      · rw [hp.old x hz]; simp
      · intro y hy
        simp only [List.mem_cons, not_or] at hy
        rw [hp.old y hy.2, Dict.get?_set_ne _ _ (Ne.symm hy.1)]
      · intro y hy; exact hf y (by simp [hy])
    · have hx' : x ∈ xs := by simpa [hxz] using hx
      obtain ⟨pre, post, σ1, w, he, h2, h3, h4, h5, h6⟩ := ih (List.nodup_cons.1 hn).2 (by
        intro y hy
        rw [Dict.get?_set_ne _ _ (by rintro rfl; exact hz hy)]
        exact hf y (by simp [hy])) x hx'
      exact ⟨z :: pre, post, σ1, w, by simp [he], h2, h3, h4, h5, h6⟩

/-- The last of the variables `vs` to be bound. -/
theorem exists_last (xs : List Name) (vs : List Name) (h : ∃ x ∈ vs, x ∈ xs) :
    ∃ pre x post, xs = pre ++ x :: post ∧ x ∈ vs ∧ ∀ y ∈ vs, y ∉ post := by
  induction xs with
  | nil => obtain ⟨x, _, hx⟩ := h; simp at hx
  | cons z xs ih =>
    by_cases h' : ∃ x ∈ vs, x ∈ xs
    · obtain ⟨pre, x, post, he, h1, h2⟩ := ih h'
      exact ⟨z :: pre, x, post, by simp [he], h1, h2⟩
    · obtain ⟨x, hx, hm⟩ := h
      have : x = z := by
        rcases List.mem_cons.1 hm with h | h
        · exact h
        · exact absurd ⟨x, hx, h⟩ h'
      subst this
      exact ⟨[], x, xs, rfl, hx, fun y hy hyx => h' ⟨y, hy, hyx⟩⟩

/-- Along a path, when the last of the variables `vs` is bound, all of them are bound. -/
theorem Path.last {xs σ τ} (hp : Path P xs σ τ) (hn : xs.Nodup) (hf : ∀ x ∈ xs, σ.get? x = none) {vs : List Name}
    (hne : ∃ x ∈ vs, x ∈ xs) :
    ∃ x ∈ vs, ∃ σ1 v, x ∈ xs ∧ P x σ1 v ∧ τ.get? x = some v ∧ ∀ y ∈ vs, (σ1.set x v).get? y = τ.get? y := by
  obtain ⟨pre, x, post, he, hx, hlast⟩ := exists_last xs vs hne
  obtain ⟨pre', post', σ1, v, he', h1, h2, h3, h4, h5⟩ := hp.at hn hf x (by simp [he])
  have hpost : post' = post := by
    rw [he] at he' hn
    have h1 : x ∉ pre := by
      intro hm
      have := List.nodup_append.1 hn
      exact this.2.2 x hm x (by simp) rfl
    have h2 : x ∉ pre' := by
      rw [he'] at hn
      intro hm
      have := List.nodup_append.1 hn
      exact this.2.2 x hm x (by simp) rfl
    clear he hlast h4 h5 hn hf hp hne
    induction pre generalizing pre' with
    | nil =>
      cases pre' with
      | nil => simpa using he'.symm
      | cons a pre' =>
        simp only [List.nil_append, List.cons_append, List.cons.injEq] at he'
        exact absurd (by simp [he'.1]) h2
    | cons b pre ih =>
      cases pre' with
      | nil =>
        simp only [List.nil_append, List.cons_append, List.cons.injEq] at he'
        exact absurd (by simp [he'.1]) h1
      | cons a pre' =>
        simp only [List.cons_append, List.cons.injEq] at he'
        exact ih pre' he'.2 (by simp at h1; exact h1.2) (by simp at h2; exact h2.2)
  subst hpost
  refine ⟨x, hx, σ1, v, by simp [he], h1, h3, fun y hy => ?_⟩
  by_cases hxy : x = y
  · subst hxy; simp [h3]
  · rw [Dict.get?_set_ne _ _ hxy]
    apply h4
    simp only [List.mem_cons, not_or]
    exact ⟨Ne.symm hxy, hlast y hy⟩

/-- A path built from a total assignment. -/
theorem path_of_total {xs : List Name} (τ : Subst) : ∀ σ : Subst, xs.Nodup → (∀ x ∈ xs, σ.get? x = none) →
    (∀ x ∈ xs, ∃ v, τ.get? x = some v) →
    (∀ x σ1 v, (∀ y w, (σ1.set x v).get? y = some w → σ.get? y = some w ∨ (y ∈ xs ∧ τ.get? y = some w)) → x ∈ xs →
      σ1.get? x = none → τ.get? x = some v → P x σ1 v) →
    ∃ τ', Path P xs σ τ' ∧ (∀ x ∈ xs, τ'.get? x = τ.get? x) := by
  induction xs with
  | nil => intro σ _ _ _ _; exact ⟨σ, .nil σ, by simp⟩
  | cons x xs ih =>
    intro σ hn hf ht hP
    have hx : x ∉ xs := (List.nodup_cons.1 hn).1
    obtain ⟨v, hv⟩ := ht x (by simp)
    obtain ⟨τ', hp, he⟩ := ih (σ.set x v) (List.nodup_cons.1 hn).2 (by
      intro y hy
      rw [Dict.get?_set_ne _ _ (by rintro rfl; exact hx hy)]
      exact hf y (by simp [hy])) (fun y hy => ht y (by simp [hy])) (by
      intro y σ1 w h1 h2 h3 h4
      refine hP y σ1 w ?_ (by simp [h2]) h3 h4
      intro z u hz
      rcases h1 z u hz with h | h
      · rw [Dict.get?_set] at h
        split at h
        · rename_i hxz; subst hxz; right; exact ⟨by simp, by rw [hv]; exact h⟩
        · exact .inl h
      · exact .inr ⟨by simp [h.1], h.2⟩)
    refine ⟨τ', .cons (hP x σ v ?_ (by simp) (hf x (by simp)) hv) hp, ?_⟩
    · intro y w hy
      rw [Dict.get?_set] at hy
      split at hy
      · rename_i hxy; subst hxy; right; exact ⟨by simp, by rw [hv]; exact hy⟩
      · exact .inl hy
    · intro y hy
      rcases List.mem_cons.1 hy with rfl | hy
      · rw [hp.old y hx]; simp [hv]
      · exact he y hy

/-! ## Order of the outputs -/

theorem idxOf_lt_of_sublist {l d : List Int} (h : l.Sublist d) (hn : d.Nodup) :
    l.Pairwise (fun v w => d.idxOf v < d.idxOf w) := by
  have : d.Pairwise (fun v w => d.idxOf v < d.idxOf w) := by
    clear h l
    induction d with
    | nil => exact .nil
    | cons a d ih =>
      have hn' := List.nodup_cons.1 hn
      refine List.pairwise_cons.2 ⟨fun w hw => ?_, ?_⟩
      · have : a ≠ w := by rintro rfl; exact hn'.1 hw
        rw [List.idxOf_cons_self, List.idxOf_cons_ne _ this]; omega
      · refine (ih hn'.2).imp_of_mem ?_
        intro v w hv hw h
        have h1 : a ≠ v := by rintro rfl; exact hn'.1 hv
        have h2 : a ≠ w := by rintro rfl; exact hn'.1 hw
        rw [List.idxOf_cons_ne _ h1, List.idxOf_cons_ne _ h2]; omega
  exact this.sublist h

section
variable {cand : S → Name → Subst → Res (List Int)} {act : S → Subst → Res S}

theorem dfsVals_pairwise {R : Subst → Subst → Prop} {L : Int → Int → Prop} {Q : Int → Subst → Prop}
    {f : Int → S → List Subst × Res S}
    (h1 : ∀ v s, (f v s).1.Pairwise R) (h2 : ∀ v s, ∀ τ ∈ (f v s).1, Q v τ)
    (h3 : ∀ v w σ τ, L v w → Q v σ → Q w τ → R σ τ) :
    ∀ vs s, vs.Pairwise L → (dfsVals f vs s).1.Pairwise R := by
  intro vs
  induction vs with
  | nil => intro s _; exact .nil
  | cons v vs ih =>
    intro s hl
    have hl := List.pairwise_cons.1 hl
    rw [dfsVals]
    have hq : ∀ s, ∀ τ ∈ (dfsVals f vs s).1, ∃ w ∈ vs, Q w τ := fun s =>
      (dfsVals_sound (Inv := fun _ => True) (Q := Q) vs (fun v _ s _ => ⟨h2 v s, fun _ _ => trivial⟩) s trivial).1
    have hv1 := h1 v s
    have hv2 := h2 v s
    cases hv : f v s with
    | mk o r =>
      rw [hv] at hv1 hv2
      cases r with
      | error e => exact hv1
      | ok s' =>
        refine List.pairwise_append.2 ⟨hv1, ih s' hl.2, ?_⟩
        intro σ hσ τ hτ
        obtain ⟨w, hw, hqw⟩ := hq s' τ hτ
        exact h3 v w σ τ (hl.1 w hw) (hv2 σ hσ) hqw

/-- The outputs come in lexicographic order (positions in `dom`). -/
theorem dfs_sorted {dom : Name → List Int} (hc : ∀ s x σ vs, cand s x σ = .ok vs → vs.Sublist (dom x))
    (hd : ∀ x, (dom x).Nodup) (xs : List Name) : xs.Nodup → ∀ σ s,
    (dfs cand act xs σ s).1.Pairwise (LexBefore dom xs) := by
  induction xs with
  | nil => intro _ σ s; simp [dfs]
  | cons x xs ih =>
    intro hn σ s
    have hx : x ∉ xs := (List.nodup_cons.1 hn).1
    rw [dfs]
    cases hv : cand s x σ with
    | error e => exact .nil
    | ok vs =>
      have hp : ∀ v s, ∀ τ ∈ (dfs cand act xs (σ.set x v) s).1, Path (fun _ _ _ => True) xs (σ.set x v) τ :=
        fun v s => (dfs_sound (Inv := fun _ => True) (P := fun _ _ _ => True) (fun _ _ _ _ _ => trivial)
          (fun _ _ _ _ _ _ _ _ => trivial) xs (σ.set x v) s trivial).1
      have hq : ∀ v s, ∀ τ ∈ (dfs cand act xs (σ.set x v) s).1, τ.get? x = some v := by
        intro v s τ hτ
        rw [(hp v s τ hτ).old x hx]; simp
      refine dfsVals_pairwise (L := fun v w => (dom x).idxOf v < (dom x).idxOf w)
        (Q := fun v τ => τ.get? x = some v) ?_ hq ?_ vs s
        (idxOf_lt_of_sublist (hc s x σ vs hv) (hd x))
      · intro v s'
        refine (ih (List.nodup_cons.1 hn).2 (σ.set x v) s').imp_of_mem ?_
        rintro τ τ' hτ hτ' ⟨pre, y, post, a, b, he, h1, h2, h3, h4⟩
        refine ⟨x :: pre, y, post, a, b, by simp [he], ?_, h2, h3, h4⟩
        intro z hz
        rcases List.mem_cons.1 hz with rfl | hz
        · rw [hq v s' τ hτ, hq v s' τ' hτ']
        · exact h1 z hz
      · intro v w σ' τ hl hv' hw'
        exact ⟨[], x, xs, v, w, rfl, by simp, hv', hw', hl⟩

end

theorem lexBefore_ne {dom xs σ τ} (h : LexBefore dom xs σ τ) : ¬ SameDict σ τ := by
  obtain ⟨pre, x, post, v, w, _, _, h2, h3, h4⟩ := h
  intro hs
  have := hs x
  rw [h2, h3] at this
  cases this
  exact absurd h4 (Nat.lt_irrefl _)

end Satisfy
