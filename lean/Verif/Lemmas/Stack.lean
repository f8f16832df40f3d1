import Verif.Lemmas.Nodes
/-! What is on the stack of the search, at any time. -/

namespace Satisfy

/-- Stack and candidate lists, when the variables are bound in the order `names` and `C` is true of every partial assignment looked at. -/
structure SInv (C : List Name → Subst → Prop) (names : List Name) (s : Search) : Prop where
  ent : ∀ p ∈ s.stack, p.1 ≠ [] ∧ ∃ pre, names = pre ++ p.1 ∧ C pre p.2
  chain : s.stack.Pairwise (fun p q => (∃ l, l ≠ [] ∧ q.1 = l ++ p.1) ∧ ∃ ρ : Subst, ρ ≠ [] ∧ p.2 = q.2 ++ ρ)
  doms : ∀ x rest σ, (x :: rest, σ) ∈ s.stack → ∀ pre, names = pre ++ x :: rest → ∀ vs, s.domains.get? x = some vs →
    ∀ v ∈ vs, C (pre ++ [x]) (σ.set x v)
  heads : ∀ y, s.domains.get? y ≠ none → ∃ p ∈ s.stack, p.1.head? = some y
  dkeys : s.domains.keys.Nodup

theorem Dict.get?_erase_ne {α} {d : Dict α} {k k' : Name} (h : k ≠ k') : (d.erase k).get? k' = d.get? k' := by
  induction d with
  | nil => rfl
  | cons p d ih =>
    obtain ⟨a, v⟩ := p
    simp only [Dict.erase]
    by_cases ha : a = k
    · subst ha; simp [Dict.get?, h]
    · simp only [ha, if_false, Dict.get?]
      by_cases hk : a = k'
      · simp [hk]
      · simp [hk, ih]

theorem Dict.erase_sublist {α} (d : Dict α) (k : Name) : (d.erase k).keys.Sublist d.keys := by
  induction d with
  | nil => exact .refl _
  | cons p d ih =>
    simp only [Dict.erase]
    split
    · exact List.sublist_cons_self _ _
    · exact ih.cons_cons _

theorem Dict.get?_erase_self {α} {d : Dict α} {k : Name} (hn : d.keys.Nodup) : (d.erase k).get? k = none := by
  induction d with
  | nil => rfl
  | cons p d ih =>
    obtain ⟨a, v⟩ := p
    have hn := List.nodup_cons.1 hn
    simp only [Dict.erase]
    by_cases ha : a = k
    · subst ha
      simp only [if_true]
      exact (Dict.get?_eq_none_iff _ _).2 hn.1
    · simp only [ha, if_false, Dict.get?]
      exact ih hn.2

theorem Dict.nodup_set {α} {d : Dict α} (hn : d.keys.Nodup) (k : Name) (v : α) : (d.set k v).keys.Nodup := by
  by_cases hk : k ∈ d.keys
  · rw [Dict.keys_set_of_mem hk]; exact hn
  · rw [Dict.set_of_none _ _ _ ((Dict.get?_eq_none_iff _ _).2 hk), Dict.keys_append]
    refine List.nodup_append.2 ⟨hn, by simp [Dict.keys], ?_⟩
    intro a ha b hb
    simp [Dict.keys] at hb
    subst hb
    rintro rfl; exact hk ha

variable {C : List Name → Subst → Prop} {names : List Name}

theorem sInv_pop {s : Search} {x : Name} {rest : List Name} {σ : Subst} {K : List (List Name × Subst)} {D : Dict (List Int)}
    (h : SInv C names s) (hs : s.stack = (x :: rest, σ) :: K)
    (hD : ∀ y, D.get? y ≠ none → y ≠ x ∧ D.get? y = s.domains.get? y) (hk : D.keys.Nodup) : SInv C names ⟨K, D⟩ := by
  have hch := h.chain
  rw [hs] at hch
  have hch := List.pairwise_cons.1 hch
  refine ⟨fun p hp => h.ent p (by rw [hs]; exact List.mem_cons_of_mem _ hp), hch.2, ?_, ?_, hk⟩
  · intro y ys τ hm pre hpre vs hvs v hv
    obtain ⟨_, he⟩ := hD y (by show D.get? y ≠ none; rw [show D.get? y = some vs from hvs]; simp)
    exact h.doms y ys τ (by rw [hs]; exact List.mem_cons_of_mem _ hm) pre hpre vs (by rw [← he]; exact hvs) v hv
  · intro y hy
    obtain ⟨hyx, he⟩ := hD y hy
    obtain ⟨p, hp, hh⟩ := h.heads y (by rw [← he]; exact hy)
    rw [hs] at hp
    rcases List.mem_cons.1 hp with rfl | hp
    · simp at hh; exact absurd hh.symm hyx
    · exact ⟨p, hp, hh⟩

/-- The list of candidate values of the top variable is written. -/
theorem sInv_doms {s : Search} {x : Name} {rest : List Name} {σ : Subst} {K : List (List Name × Subst)} {vs : List Int}
    (hn : names.Nodup) (h : SInv C names s) (hs : s.stack = (x :: rest, σ) :: K)
    (hvs : ∀ pre, names = pre ++ x :: rest → ∀ v ∈ vs, C (pre ++ [x]) (σ.set x v)) : SInv C names ⟨s.stack, s.domains.set x vs⟩ := by
  refine ⟨h.ent, h.chain, ?_, ?_, Dict.nodup_set h.dkeys _ _⟩
  · intro y ys τ hm pre hpre ws hws v hv
    by_cases hxy : x = y
    · subst hxy
      simp only [Dict.get?_set_self, Option.some.injEq] at hws
      subst hws
      -- the entry is the top entry
      rw [hs] at hm
      rcases List.mem_cons.1 hm with he | hm
      · simp only [Prod.mk.injEq, List.cons.injEq, true_and] at he
        obtain ⟨rfl, rfl⟩ := he
        exact hvs pre hpre v hv
      · exfalso
        have hch := h.chain
        rw [hs] at hch
        obtain ⟨⟨l, hl0, hl⟩, _⟩ := (List.pairwise_cons.1 hch).1 _ hm
        simp only at hl
        cases l with
        | nil => exact hl0 rfl
        | cons z l =>
          simp only [List.cons_append, List.cons.injEq] at hl
          rw [hpre] at hn
          have := (List.nodup_cons.1 (List.nodup_append.1 hn).2.1).1
          rw [hl.2] at this
          simp at this
    · exact h.doms y ys τ hm pre hpre ws (by rw [← Dict.get?_set_ne _ vs hxy]; exact hws) v hv
  · intro y hy
    by_cases hxy : x = y
    · subst hxy; exact ⟨(x :: rest, σ), by rw [hs]; simp, rfl⟩
    · exact h.heads y (by rw [← Dict.get?_set_ne _ vs hxy]; exact hy)

theorem sInv_push {s : Search} {x y : Name} {ys : List Name} {σ : Subst} {K : List (List Name × Subst)} {v : Int}
    (hn : names.Nodup) (hC : ∀ pre σ, C pre σ → σ.keys = pre) (h : SInv C names s) (hs : s.stack = (x :: y :: ys, σ) :: K)
    (hv : ∀ pre, names = pre ++ x :: y :: ys → C (pre ++ [x]) (σ.set x v)) :
    SInv C names ⟨(y :: ys, σ.set x v) :: s.stack, s.domains⟩ := by
  obtain ⟨_, pre, hpre, hc⟩ := h.ent (x :: y :: ys, σ) (by rw [hs]; simp)
  simp only at hpre hc
  have hx : σ.get? x = none := by
    rw [Dict.get?_eq_none_iff, hC pre σ hc]
    intro hm
    rw [hpre] at hn
    exact (List.nodup_append.1 hn).2.2 x hm x (by simp) rfl
  have hch := h.chain
  -- every entry of the stack has `x :: y :: ys` as an end
  have hsuf : ∀ p ∈ s.stack, ∃ l, p.1 = l ++ x :: y :: ys := by
    intro p hp
    rw [hs] at hp hch
    rcases List.mem_cons.1 hp with rfl | hp
    · exact ⟨[], rfl⟩
    · obtain ⟨⟨l, _, hl⟩, _⟩ := (List.pairwise_cons.1 hch).1 p hp
      exact ⟨l, hl⟩
  refine ⟨?_, ?_, ?_, ?_, h.dkeys⟩
  · intro p hp
    rcases List.mem_cons.1 hp with rfl | hp
    · exact ⟨by simp, pre ++ [x], by simpa using hpre, hv pre hpre⟩
    · exact h.ent p hp
  · refine List.pairwise_cons.2 ⟨fun q hq => ?_, h.chain⟩
    have hset := Dict.set_of_none σ x v hx
    rw [hs] at hq hch
    rcases List.mem_cons.1 hq with rfl | hq
    · exact ⟨⟨[x], by simp, rfl⟩, [(x, v)], by simp, hset⟩
    · obtain ⟨⟨l, _, hl⟩, ρ, _, hρ⟩ := (List.pairwise_cons.1 hch).1 q hq
      simp only at hl hρ
      exact ⟨⟨l ++ [x], by simp, by simpa using hl⟩, ρ ++ [(x, v)], by simp, by
        show σ.set x v = _
        rw [hset, ← List.append_assoc, ← hρ]⟩
  · intro z zs τ hm pre' hpre' ws hws w hw
    rcases List.mem_cons.1 hm with he | hm
    · exfalso
      simp only [Prod.mk.injEq, List.cons.injEq] at he
      obtain ⟨⟨rfl, rfl⟩, rfl⟩ := he
      obtain ⟨p, hp, hh⟩ := h.heads z (by rw [show s.domains.get? z = some ws from hws]; simp)
      obtain ⟨l, hl⟩ := hsuf p hp
      obtain ⟨_, pp, hpp, _⟩ := h.ent p hp
      rw [hpp, hl] at hn
      rw [hl] at hh
      have hn := (List.nodup_append.1 hn).2.1
      cases l with
      | nil =>
        simp only [List.nil_append, List.head?_cons, Option.some.injEq] at hh
        subst hh
        simp at hn
      | cons b l =>
        simp only [List.cons_append, List.head?_cons, Option.some.injEq] at hh
        subst hh
        simp at hn
    · exact h.doms z zs τ hm pre' hpre' ws hws w hw
  · intro z hz
    obtain ⟨p, hp, hh⟩ := h.heads z hz
    exact ⟨p, List.mem_cons_of_mem _ hp, hh⟩

/-- One pass through the loop keeps the invariant; what is handed out is looked at as well. -/
theorem sInv_step {c : Name → Subst → Res (List Int)} {s : Search}
    (hn : names.Nodup) (hC : ∀ pre σ, C pre σ → σ.keys = pre)
    (hc : ∀ pre x rest σ vs, names = pre ++ x :: rest → C pre σ → c x σ = .ok vs → ∀ v ∈ vs, C (pre ++ [x]) (σ.set x v))
    (h : SInv C names s) :
    (∀ s', s.step c = .silent s' → SInv C names s') ∧ (∀ σ s', s.step c = .yield σ s' → SInv C names s' ∧ C names σ) := by
  have take : ∀ (x : Name) (rest : List Name) (σ : Subst) (K : List (List Name × Subst)) (v : Int) (vs : List Int),
      s.stack = (x :: rest, σ) :: K → (∀ pre, names = pre ++ x :: rest → ∀ w ∈ v :: vs, C (pre ++ [x]) (σ.set x w)) →
      (∀ s', s.take x rest σ v vs = .silent s' → SInv C names s') ∧
      (∀ τ s', s.take x rest σ v vs = .yield τ s' → SInv C names s' ∧ C names τ) := by
    intro x rest σ K v vs hs hv
    have hd := sInv_doms (vs := vs) hn h hs (fun pre hpre w hw => hv pre hpre w (List.mem_cons_of_mem _ hw))
    cases rest with
    | nil =>
      refine ⟨fun s' hs' => by simp [Search.take] at hs', fun τ s' hs' => ?_⟩
      simp only [Search.take, Ev.yield.injEq] at hs'
      obtain ⟨rfl, rfl⟩ := hs'
      obtain ⟨_, pre, hpre, _⟩ := h.ent ([x], σ) (by rw [hs]; simp)
      refine ⟨hd, ?_⟩
      have := hv pre hpre v (by simp)
      rw [hpre]; exact this
    | cons y ys =>
      refine ⟨fun s' hs' => ?_, fun τ s' hs' => by simp [Search.take] at hs'⟩
      simp only [Search.take, Ev.silent.injEq] at hs'
      subst hs'
      exact sInv_push (s := ⟨s.stack, s.domains.set x vs⟩) hn hC hd hs (fun pre hpre => hv pre hpre v (by simp))
  unfold Search.step
  cases hs : s.stack with
  | nil => simp
  | cons p K =>
    obtain ⟨us, σ⟩ := p
    cases us with
    | nil => simp
    | cons x rest =>
      simp only
      cases hd : s.domains.get? x with
      | none =>
        simp only
        cases hcx : c x σ with
        | error e => simp
        | ok vs =>
          cases vs with
          | nil =>
            refine ⟨fun s' hs' => ?_, fun τ s' hs' => by simp at hs'⟩
            simp only [Ev.silent.injEq] at hs'
            subst hs'
            exact sInv_pop h hs (fun y hy => ⟨by rintro rfl; exact hy hd, rfl⟩) h.dkeys
          | cons v vs =>
            simp only
            refine take x rest σ K v vs hs (fun pre hpre w hw => ?_)
            obtain ⟨_, pre', hpre', hc'⟩ := h.ent (x :: rest, σ) (by rw [hs]; simp)
            simp only at hpre' hc'
            have : pre' = pre := by
              rw [hpre] at hpre'; exact (List.append_cancel_right hpre').symm
            subst this
            exact hc _ x rest σ _ hpre hc' hcx w hw
      | some vs =>
        cases vs with
        | nil =>
          refine ⟨fun s' hs' => ?_, fun τ s' hs' => by simp at hs'⟩
          simp only [Ev.silent.injEq] at hs'
          subst hs'
          refine sInv_pop h hs (fun y hy => ?_) (h.dkeys.sublist (Dict.erase_sublist _ _))
          have hyx : y ≠ x := by rintro rfl; exact hy (Dict.get?_erase_self h.dkeys)
          exact ⟨hyx, Dict.get?_erase_ne (Ne.symm hyx)⟩
        | cons v vs =>
          simp only
          refine take x rest σ K v vs hs (fun pre hpre w hw => ?_)
          exact h.doms x rest σ (by rw [hs]; simp) pre hpre _ hd w hw

theorem resume_search (cfg : RunCfg) (g : Gen) : (g.resume cfg).search = g.search := by
  have hw : ∀ (r : Res Timer) (k : Gen → Gen), (∀ g', (k g').search = g'.search) → (g.withTimer r k).search = g.search := by
    intro r k hk
    unfold Gen.withTimer
    cases r with
    | ok t => exact hk _
    | error e => rfl
  have hif : ∀ (b : Bool) (x y : Gen), x.search = g.search → y.search = g.search → (if b = true then x else y).search = g.search := by
    intro b x y hx hy; cases b
    · exact hy
    · exact hx
  exact hif _ _ _ (hw _ _ (fun _ => rfl)) (hw _ _ (fun _ => rfl))

theorem sInv_first (h : C [] []) (hne : names ≠ []) (t : Int) : SInv C names (Gen.first names t).search := by
  refine ⟨?_, ?_, ?_, ?_, ?_⟩ <;> simp [Gen.first, Dict.keys, h, hne]

/-- The invariant along any run whose consumer leaves alone what the candidates depend on. -/
theorem sInv_run {S : Type} {cfg : RunCfg} {cand : S → Name → Subst → Res (List Int)} {act : S → Subst → Res S} {J : S → Prop}
    (hn : names.Nodup) (hC : ∀ pre σ, C pre σ → σ.keys = pre)
    (hJ : ∀ s σ s', J s → act s σ = .ok s' → J s')
    (hc : ∀ s, J s → ∀ pre x rest σ vs, names = pre ++ x :: rest → C pre σ → cand s x σ = .ok vs → ∀ v ∈ vs, C (pre ++ [x]) (σ.set x v))
    (n : Nat) : ∀ (g : Gen) (s : S), SInv C names g.search → J s → SInv C names (sysRun cfg cand act n g s).2.1.search := by
  induction n with
  | zero => intro g s h _; exact h
  | succ n ih =>
    intro g s h hj
    rw [sysRun_succ]
    have hstep := sInv_step (c := cand s) hn hC (hc s hj) h
    have key : SInv C names (sysStep cfg cand act g s).1.search ∧ J (sysStep cfg cand act g s).2 := by
      unfold sysStep
      cases hp : g.phase with
      | running =>
        refine ⟨?_, hj⟩
        simp only
        unfold Gen.loop
        split
        · exact h
        · split
          · exact h
          · by_cases hto : cfg.timeout.isSome = true
            · simp only [hto, if_true]
              cases hst : g.search.step (cand s) with
              | done => exact h
              | raised e => exact h
              | silent s' => exact hstep.1 s' hst
              | yield σ s' =>
                simp only [Gen.withTimer]
                cases g.timer.doStop (cfg.clock (g.tick + 1)) with
                | ok t => exact (hstep.2 σ s' hst).1
                | error e => exact h
            · simp only [hto, Bool.false_eq_true, if_false]
              cases hst : g.search.step (cand s) with
              | done => exact h
              | raised e => exact h
              | silent s' => exact hstep.1 s' hst
              | yield σ s' =>
                simp only [Gen.withTimer]
                cases g.timer.doStop (cfg.clock g.tick) with
                | ok t => exact (hstep.2 σ s' hst).1
                | error e => exact h
      | suspended σ =>
        simp only
        cases ha : act s σ with
        | error e => exact ⟨h, hj⟩
        | ok s' =>
          refine ⟨?_, hJ s σ s' hj ha⟩
          rw [resume_search]; exact h
      | finished => exact ⟨h, hj⟩
      | raised e => exact ⟨h, hj⟩
    exact ih _ _ key.1 key.2

end Satisfy
