import Verif.Lemmas.Natural
/-! Where exceptions come from. -/

namespace Satisfy

/-- The exceptions of a search come from the candidates or the consumer, in a state that can be reached; `Q` tells what is known about
the assignment when the names of its first argument are still to be bound. -/
theorem dfs_error_at {S : Type} {cand : S → Name → Subst → Res (List Int)} {act : S → Subst → Res S} {Inv : S → Prop}
    {Q : List Name → Subst → Prop} {names : List Name} (hact : ∀ s σ s', Inv s → Q [] σ → act s σ = .ok s' → Inv s')
    (hc : ∀ s x xs σ vs, Inv s → Q (x :: xs) σ → x ∈ names → cand s x σ = .ok vs → ∀ v ∈ vs, Q xs (σ.set x v)) {e : Err} (xs : List Name) :
    (∀ x ∈ xs, x ∈ names) → ∀ σ s, Q xs σ → Inv s → (∀ s', (dfs cand act xs σ s).2 = .ok s' → Inv s') ∧
    ((dfs cand act xs σ s).2 = .error e →
      (∃ s x xs σ, Inv s ∧ Q (x :: xs) σ ∧ x ∈ names ∧ cand s x σ = .error e) ∨ (∃ s σ, Inv s ∧ Q [] σ ∧ act s σ = .error e)) := by
  induction xs with
  | nil =>
    intro _ σ s hq hs
    exact ⟨fun s' h => hact s σ s' hs hq h, fun h => .inr ⟨s, σ, hs, hq, h⟩⟩
  | cons x xs ih =>
    intro hsub σ s hq hs
    have hx := hsub x (by simp)
    have ih := ih (fun y hy => hsub y (by simp [hy]))
    rw [dfs]
    cases hcand : cand s x σ with
    | error e' =>
      refine ⟨by simp, fun h => ?_⟩
      simp at h; subst h
      exact .inl ⟨s, x, xs, σ, hs, hq, hx, hcand⟩
    | ok vs =>
      have hv := hc s x xs σ vs hs hq hx hcand
      simp only
      clear hcand
      suffices ∀ (vs : List Int), (∀ v ∈ vs, Q xs (σ.set x v)) → ∀ s, Inv s →
          (∀ s', (dfsVals (fun v s => dfs cand act xs (σ.set x v) s) vs s).2 = .ok s' → Inv s') ∧
          ((dfsVals (fun v s => dfs cand act xs (σ.set x v) s) vs s).2 = .error e →
            (∃ s x xs σ, Inv s ∧ Q (x :: xs) σ ∧ x ∈ names ∧ cand s x σ = .error e) ∨ (∃ s σ, Inv s ∧ Q [] σ ∧ act s σ = .error e)) from
        this vs hv s hs
      clear hv vs hs s hq
      intro vs
      induction vs with
      | nil => intro _ s hs; simp only [dfsVals]; exact ⟨by rintro s' h; cases h; exact hs, by intro h; cases h⟩
      | cons v vs ihv =>
        intro hv s hs
        have h1 := ih (σ.set x v) s (hv v (by simp)) hs
        rw [dfsVals]
        cases hd : dfs cand act xs (σ.set x v) s with
        | mk o r =>
          rw [hd] at h1
          cases r with
          | error e' => exact ⟨by simp, fun h => h1.2 h⟩
          | ok s1 => exact ihv (fun w hw => hv w (by simp [hw])) s1 (h1.1 s1 rfl)

/-- … with the same `Q` throughout. -/
theorem dfs_error {S : Type} {cand : S → Name → Subst → Res (List Int)} {act : S → Subst → Res S} {Inv : S → Prop} {Q : Subst → Prop}
    {names : List Name} (hact : ∀ s σ s', Inv s → Q σ → act s σ = .ok s' → Inv s')
    (hc : ∀ s x σ vs, Inv s → Q σ → x ∈ names → cand s x σ = .ok vs → ∀ v ∈ vs, Q (σ.set x v)) {e : Err} (xs : List Name) :
    (∀ x ∈ xs, x ∈ names) → ∀ σ s, Q σ → Inv s → (∀ s', (dfs cand act xs σ s).2 = .ok s' → Inv s') ∧
    ((dfs cand act xs σ s).2 = .error e →
      (∃ s x σ, Inv s ∧ Q σ ∧ x ∈ names ∧ cand s x σ = .error e) ∨ (∃ s σ, Inv s ∧ Q σ ∧ act s σ = .error e)) := by
  intro hsub σ s hq hs
  obtain ⟨h1, h2⟩ := dfs_error_at (Q := fun _ => Q) hact (fun s x _ => hc s x) (e := e) xs hsub σ s hq hs
  refine ⟨h1, fun h => ?_⟩
  rcases h2 h with ⟨s, x, _, h⟩ | h
  · exact .inl ⟨s, x, h⟩
  · exact .inr h

/-- The values are from the declared domains. -/
def Within (m : Model) (σ : Subst) : Prop := ∀ x v, σ.get? x = some v → ∃ d, m.domain? x = some d ∧ v ∈ d

/-- The reasons for which an iteration of `solve` can raise `e`: a constraint, evaluated when its variables are bound to values of
their domains, raises `e`; or an all-different constraint is over something that is not a variable of the model; or over nothing. -/
inductive Cause (m : Model) (H : Heap) (cs : List Constraint) (e : Err) : Prop
  | con (c : Constraint) (σ : Subst) : c ∈ cs → Within m σ → (∀ x ∈ c.vars, σ.get? x ≠ none) → c.evaluate H σ = .error e → Cause m H cs e
  | unknown (c : Constraint) (ns : List Name) (x : Name) : c ∈ cs → c.kind = .allDiff ns → x ∈ ns → m.domain? x = none →
      e = .keyError → Cause m H cs e
  | empty (c : Constraint) : c ∈ cs → c.kind = .allDiff [] → e = .valueError → Cause m H cs e

theorem filterDomain_error {h : Heap} {c : Constraint} {x : Name} {d : List Int} {e : Err} (hd : filterDomain h c x d = .error e) :
    ∃ v ∈ d, c.evaluate h [(x, v)] = .error e := by
  induction d with
  | nil => simp [filterDomain] at hd
  | cons v d ih =>
    simp only [filterDomain] at hd
    cases hv : c.evaluate h [(x, v)] with
    | error e' => rw [hv] at hd; simp at hd; subst hd; exact ⟨v, by simp, hv⟩
    | ok r =>
      rw [hv] at hd
      cases hf : filterDomain h c x d with
      | ok d' => rw [hf] at hd; simp at hd
      | error e' =>
        rw [hf] at hd; simp at hd; subst hd
        obtain ⟨w, hw, he⟩ := ih hf
        exact ⟨w, by simp [hw], he⟩

theorem setupOne_error {m : Model} (hn : m.vars.keys.Nodup) {H : Heap} {cs all : List Constraint} {info : Info} {comp : Bool}
    {c : Constraint} {h h' : Heap} {e : Err} (hi : SetupInv m H cs info) (hs : setupOne comp c h info = (h', .error e))
    (hev : ∀ σ, c.evaluate (compileAll comp [c] h) σ = c.evaluate H σ) (hc : c ∈ all) : Cause m H all e := by
  have hcomp : (if comp = true then c.compile h else h) = compileAll comp [c] h := by
    cases comp <;> rfl
  unfold setupOne at hs
  simp only [hcomp] at hs
  have key : ∀ x, c.vars = [x] → ∀ d, info.vars.get? x = some d → filterDomain (compileAll comp [c] h) c x d = .error e → Cause m H all e := by
    intro x hx d hd hf
    obtain ⟨v, hv, he⟩ := filterDomain_error hf
    obtain ⟨d0, h0, hsub, _⟩ := hi.dom x d hd
    refine .con c [(x, v)] hc ?_ ?_ (by rw [← hev]; exact he)
    · intro y w hy
      simp only [Dict.get?] at hy
      split at hy
      · rename_i heq; subst heq; cases hy
        exact ⟨d0, by rw [← pureVars_get? hn]; exact h0, hsub.subset hv⟩
      · cases hy
    · intro y hy; rw [hx] at hy; simp at hy; subst hy; simp [Dict.get?]
  split at hs
  · simp at hs
  · split at hs
    · rename_i x hx
      split at hs
      · rename_i d hd
        split at hs
        · simp at hs
        · rename_i e' hf
          simp only [Prod.mk.injEq, Except.error.injEq] at hs
          rw [hs.2] at hf
          exact key x hx d hd hf
      · simp at hs
    · simp at hs

theorem setupLoop_error {m : Model} (hn : m.vars.keys.Nodup) {comp : Bool} {h0 : Heap} {e : Err} (rest : List Constraint) :
    ∀ (pre : List Constraint) (info : Info) (h' : Heap),
    SameIds (pre ++ rest) →
    SetupInv m (compileAll comp (pre ++ rest) h0) pre info →
    setupLoop comp rest (compileAll comp pre h0) info = (h', .error e) →
    Cause m (compileAll comp (pre ++ rest) h0) (pre ++ rest) e := by
  induction rest with
  | nil =>
    intro pre info h' _ hi hs
    simp [setupLoop] at hs
  | cons c rest ih =>
    intro pre info h' hsame hi hs
    rw [setupLoop] at hs
    have hassoc : pre ++ c :: rest = (pre ++ [c]) ++ rest := by simp
    have hev : ∀ σ, c.evaluate (compileAll comp [c] (compileAll comp pre h0)) σ = c.evaluate (compileAll comp (pre ++ c :: rest) h0) σ :=
      fun σ => evaluate_after (post := rest) (fun c' hc' hid => hsame c (by simp) c' (by simp [hc']) hid) σ
    cases h1 : setupOne comp c (compileAll comp pre h0) info with
    | mk h1' r =>
      rw [h1] at hs
      cases r with
      | error e' =>
        simp only [Prod.mk.injEq, Except.error.injEq] at hs
        rw [hs.2] at h1
        exact setupOne_error hn hi h1 hev (by simp)
      | ok info1 =>
        obtain ⟨he, hi1⟩ := setupOne_spec hi h1 hev
        rw [he, ← compileAll_append] at hs
        rw [hassoc] at hsame hi1 ⊢
        exact ih (pre ++ [c]) info1 h' hsame hi1 hs

theorem checkGroups_error {vars : Dict (List Int)} {gs : List (List Name)} {e : Err} (h : checkGroups vars gs = .error e) :
    ∃ g ∈ gs, (g = [] ∧ e = .valueError) ∨ (∃ x ∈ g, vars.get? x = none) ∧ e = .keyError := by
  induction gs with
  | nil => simp [checkGroups] at h
  | cons g gs ih =>
    simp only [checkGroups] at h
    split at h
    · rename_i h1
      rw [List.any_eq_true] at h1
      obtain ⟨x, hx, h1⟩ := h1
      simp only [Except.error.injEq] at h
      exact ⟨g, by simp, .inr ⟨⟨x, hx, (Dict.has_eq_false_iff _ _).1 (by simpa using h1)⟩, h.symm⟩⟩
    · split at h
      · rename_i h2
        simp only [Except.error.injEq] at h
        exact ⟨g, by simp, .inl ⟨by simpa using h2, h.symm⟩⟩
      · obtain ⟨g', hg', h'⟩ := ih h
        exact ⟨g', by simp [hg'], h'⟩

theorem setup_error {m : Model} (hn : m.vars.keys.Nodup) {comp : Bool} {h : Heap} {adds : List Constraint} {e : Err}
    (hs : SameIds (m.constraints ++ adds)) (he : (setup comp m adds h).2 = .error e) :
    Cause m (compileAll comp (m.constraints ++ adds) h) (m.constraints ++ adds) e := by
  unfold setup at he
  cases hl : setupLoop comp (m.constraints ++ adds) h (.init m) with
  | mk h1 r =>
    rw [hl] at he
    cases r with
    | error e' =>
      simp only [Except.error.injEq] at he
      subst he
      have := setupLoop_error hn (comp := comp) (h0 := h) (m.constraints ++ adds) [] (.init m) h1 (by simpa using hs)
        (setupInv_init _ _) (by cases comp <;> simpa [compileAll] using hl)
      simpa using this
    | ok info1 =>
      simp only at he
      cases hg : checkGroups info1.vars info1.groups with
      | ok u => rw [hg] at he; simp at he
      | error e' =>
        rw [hg] at he
        simp only [Except.error.injEq] at he
        subst he
        have hsp := setupLoop_spec (m := m) (comp := comp) (h0 := h) (m.constraints ++ adds) [] (.init m) info1 h1 hs
          (setupInv_init _ _) (by cases comp <;> simpa [compileAll] using hl)
        simp only [List.nil_append] at hsp
        obtain ⟨g, hg, h'⟩ := checkGroups_error hg
        rw [hsp.2.groups] at hg
        obtain ⟨c, hc, rfl⟩ := List.mem_map.1 hg
        obtain ⟨hc, had⟩ := List.mem_filter.1 hc
        have hk : ∃ ns, c.kind = .allDiff ns := by
          cases hk : c.kind with
          | allDiff ns => exact ⟨ns, rfl⟩
          | const b => simp [Constraint.isAD, hk] at had
          | expr b => simp [Constraint.isAD, hk] at had
        obtain ⟨ns, hk⟩ := hk
        have hv : c.vars = dedup ns := by simp [Constraint.vars, hk, CKind.vars]
        rcases h' with ⟨h1, h2⟩ | ⟨⟨x, hx, hx'⟩, h2⟩
        · have : ns = [] := by
            cases ns with
            | nil => rfl
            | cons y ns =>
              have : y ∈ dedup (y :: ns) := (mem_dedup _ _).2 (by simp)
              rw [← hv, h1] at this; simp at this
          subst this
          exact .empty c hc hk h2
        · refine .unknown c ns x hc hk ((mem_dedup _ _).1 (by rw [← hv]; exact hx)) ?_ h2
          rw [← pureVars_get? hn]
          rw [Dict.get?_eq_none_iff] at hx' ⊢
          rw [← hsp.2.keys]; exact hx'

theorem noneUnsat_error {h : Heap} {σ : Subst} {cs : List Constraint} {e : Err} (hn : noneUnsat h σ cs = .error e) :
    ∃ c ∈ cs, (∀ x ∈ c.vars, σ.get? x ≠ none) ∧ c.evaluate h σ = .error e := by
  induction cs with
  | nil => simp [noneUnsat] at hn
  | cons c cs ih =>
    simp only [noneUnsat] at hn
    cases hu : c.unsatisfied h σ with
    | ok b =>
      rw [hu] at hn
      cases b with
      | true => simp at hn
      | false =>
        simp at hn
        obtain ⟨c', hc', h'⟩ := ih hn
        exact ⟨c', by simp [hc'], h'⟩
    | error e' =>
      rw [hu] at hn; simp at hn; subst hn
      have hb : ∀ x ∈ c.vars, σ.get? x ≠ none := by
        intro x hx hnone
        rw [unsat_of_missing hx hnone] at hu; cases hu
      refine ⟨c, by simp, hb, ?_⟩
      rw [unsat_of_bound hb] at hu
      cases hev : c.evaluate h σ with
      | ok r => rw [hev] at hu; simp at hu
      | error e'' => rw [hev] at hu; simpa using hu

theorem candLoop_error {h : Heap} {info : Info} {x : Name} {σ : Subst} {d : List Int} {e : Err}
    (hc : candLoop h info x σ d = .error e) :
    ∃ v ∈ d, ∃ c ∈ info.cons x, (∀ y ∈ c.vars, (σ.set x v).get? y ≠ none) ∧ c.evaluate h (σ.set x v) = .error e := by
  induction d with
  | nil => simp [candLoop] at hc
  | cons v d ih =>
    simp only [candLoop] at hc
    cases ha : acceptable h info x σ v with
    | error e' =>
      rw [ha] at hc; simp at hc; subst hc
      unfold acceptable at ha
      simp only at ha
      split at ha
      · simp at ha
      · obtain ⟨c, hc, h1, h2⟩ := noneUnsat_error ha
        exact ⟨v, by simp, c, hc, h1, h2⟩
    | ok b =>
      rw [ha] at hc
      cases hr : candLoop h info x σ d with
      | ok r => rw [hr] at hc; simp at hc
      | error e' =>
        rw [hr] at hc; simp at hc; subst hc
        obtain ⟨w, hw, h'⟩ := ih hr
        exact ⟨w, by simp [hw], h'⟩

theorem within_set {m : Model} {σ : Subst} (h : Within m σ) {x : Name} {v : Int} {d : List Int} (hd : m.domain? x = some d) (hv : v ∈ d) :
    Within m (σ.set x v) := by
  intro y w hy
  by_cases hxy : x = y
  · subst hxy
    rw [Dict.get?_set_self] at hy; cases hy
    exact ⟨d, hd, hv⟩
  · rw [Dict.get?_set_ne _ _ hxy] at hy
    exact h y w hy

/-- The candidate values are from the declared domain. -/
theorem candidates_dom {m : Model} (hn : m.vars.keys.Nodup) {H H' : Heap} {cs : List Constraint} {info : Info} (hi : SetupInv m H cs info)
    {x : Name} {σ : Subst} {vs : List Int} (hc : candidates info H' x σ = .ok vs) : ∃ d, m.domain? x = some d ∧ ∀ v ∈ vs, v ∈ d := by
  obtain ⟨d, hd, hsub, _⟩ := candidates_ok hc
  obtain ⟨d0, h0, hs0, _⟩ := hi.dom x d hd
  exact ⟨d0, by rw [← pureVars_get? hn]; exact h0, fun v hv => hs0.subset (hsub.subset hv)⟩

theorem candidates_error {m : Model} (hn : m.vars.keys.Nodup) {H H' : Heap} {cs : List Constraint} {info : Info} (hi : SetupInv m H cs info)
    {x : Name} {σ : Subst} {e : Err} (hx : x ∈ m.pureVars.keys) (hw : Within m σ) (hc : candidates info H' x σ = .error e) :
    ∃ c ∈ cs, ∃ τ, c.isAD = false ∧ Within m τ ∧ (∀ y ∈ c.vars, τ.get? y ≠ none) ∧ c.evaluate H' τ = .error e := by
  unfold candidates at hc
  cases hd : info.vars.get? x with
  | none =>
    rw [Dict.get?_eq_none_iff, hi.keys] at hd
    exact absurd hx hd
  | some d =>
    rw [hd] at hc
    obtain ⟨v, hv, c, hcc, h1, h2⟩ := candLoop_error hc
    obtain ⟨d0, h0, hs0, _⟩ := hi.dom x d hd
    rw [hi.cons] at hcc
    obtain ⟨hcc, hf⟩ := List.mem_filter.1 hcc
    refine ⟨c, hcc, σ.set x v, by simp at hf; exact hf.1.1, within_set hw (by rw [← pureVars_get? hn]; exact h0) (hs0.subset hv), h1, h2⟩

end Satisfy
