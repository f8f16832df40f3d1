import Verif.Lemmas.Parse
import Mathlib.Tactic.SplitIfs
/-!
# What the parser accepts

A text that the parser accepts with some fuel is a phrase: it is read the same way with the fuel of `parseBody` and in front of anything that may
follow. Brackets around a balanced text change nothing.
-/

namespace Satisfy

/-- Depth of brackets after reading; `none`: a bracket is closed that was not opened. -/
def depth : Nat → List Tok → Option Nat
  | d, [] => some d
  | d, .lpar :: r => depth (d + 1) r
  | 0, .rpar :: _ => none
  | d + 1, .rpar :: r => depth d r
  | d, _ :: r => depth d r

def Bal (t : List Tok) : Prop := ∀ d r, depth d (t ++ r) = depth d r

theorem Bal.nil : Bal [] := fun _ _ => rfl

theorem Bal.append {t u} (ht : Bal t) (hu : Bal u) : Bal (t ++ u) := by
  intro d r; rw [List.append_assoc, ht, hu]

theorem Bal.single {t : Tok} (h1 : t ≠ .lpar) (h2 : t ≠ .rpar) : Bal [t] := by
  intro d r
  cases t <;> first | exact absurd rfl h1 | exact absurd rfl h2 | (cases d <;> rfl)

theorem Bal.cons {t : Tok} {u} (h1 : t ≠ .lpar) (h2 : t ≠ .rpar) (hu : Bal u) : Bal (t :: u) := Bal.append (Bal.single h1 h2) hu

theorem Bal.paren {t} (ht : Bal t) : Bal (.lpar :: t ++ [.rpar]) := by
  intro d r
  simp only [List.cons_append, List.append_assoc, depth]
  rw [ht]; rfl

/-- Nothing goes on. -/
def StopTok (r : List Tok) : Prop := r = [] ∨ ∃ t r', r = t :: r' ∧ (t = .rpar ∨ t = .rbrk ∨ t = .comma)

/-- The parser cannot tell `r` from `r'` by looking at the next token. -/
def Compat (r r' : List Tok) : Prop := (∃ t s s', r = t :: s ∧ r' = t :: s') ∨ StopTok r ∧ StopTok r'

theorem Compat.app (u : List Tok) {r r' : List Tok} (h : Compat r r') : Compat (u ++ r) (u ++ r') := by
  cases u with
  | nil => exact h
  | cons t u => exact .inl ⟨t, _, _, rfl, rfl⟩

theorem Compat.head (t : Tok) (s s' : List Tok) : Compat (t :: s) (t :: s') := .inl ⟨t, s, s', rfl, rfl⟩

/-! ## Equations for atoms -/

theorem pE_10_num {f n r} : pE (f + 1) 10 (.num n :: r) = some (.num n, r) := by simp [pE]

theorem pE_10_lpar {f r} : pE (f + 1) 10 (.lpar :: r) = match pE f 0 r with
    | some (a, .rpar :: r') => some (a, r')
    | _ => none := by
  conv => lhs; unfold pE
  rfl

theorem pE_10_list {f x r} : pE (f + 1) 10 (.name x :: .lpar :: .lbrk :: r) = match pList f r with
    | some (as, .rbrk :: .rpar :: r') => some (.callList x as, r')
    | _ => none := by
  conv => lhs; unfold pE
  rfl

theorem pE_10_call {f x r} (h : ∀ s, r ≠ .lbrk :: s) : pE (f + 1) 10 (.name x :: .lpar :: r) = match pE f 0 r with
    | some (a, .rpar :: r') => some (.call x a, r')
    | _ => none := by
  cases r with
  | nil => conv => lhs; unfold pE
           rfl
  | cons t r =>
    cases t with
    | lbrk => exact absurd rfl (h r)
    | _ => conv => lhs; unfold pE
           rfl

theorem pE_10_name {f x r} (h : ∀ s, r ≠ .lpar :: s) : pE (f + 1) 10 (.name x :: r) =
    if x = "True" then some (.num 1, r) else if x = "False" then some (.num 0, r) else if x ∈ pyKeywords then none else some (.name x, r) := by
  cases r with
  | nil => conv => lhs; unfold pE
           rfl
  | cons t r =>
    cases t with
    | lpar => exact absurd rfl (h r)
    | _ => conv => lhs; unfold pE
           rfl

theorem pE_10_other {f t} (h1 : ∀ n r, t ≠ .num n :: r) (h2 : ∀ r, t ≠ .lpar :: r) (h3 : ∀ x r, t ≠ .name x :: r) : pE (f + 1) 10 t = none := by
  cases t with
  | nil => conv => lhs; unfold pE
           rfl
  | cons t r =>
    cases t with
    | num n => exact absurd rfl (h1 n r)
    | lpar => exact absurd rfl (h2 r)
    | name x => exact absurd rfl (h3 x r)
    | _ => conv => lhs; unfold pE
           rfl

theorem pE_high {f l t} (h : 10 < l) : pE f l t = none := by
  induction f generalizing l with
  | zero => simp [pE]
  | succ f ih =>
    obtain ⟨k, rfl⟩ : ∃ k, l = k + 11 := ⟨l - 11, by omega⟩
    unfold pE
    simp [ih (l := k + 11 + 1) (by omega)]

theorem pLoop_op {f l a o r} : pLoop (f + 1) l a (.op o :: r) = if o.level = some l then
      match pE f (l + 1) r with
      | some (b, r') => pLoop f l (mkBin o a b) r'
      | none => none
    else some (a, .op o :: r) := by
  conv => lhs; unfold pLoop
  rfl

theorem pLoop_other {f l a r} (h : ∀ o s, r ≠ .op o :: s) : pLoop (f + 1) l a r = some (a, r) := by
  cases r with
  | nil => simp [pLoop]
  | cons t r => cases t <;> simp [pLoop] <;> exact absurd rfl (h _ _)

theorem pChain_op {f acc a o r} : pChain (f + 1) acc a (.op o :: r) = if o.level = some 3 then
      match pE f 4 r with
      | some (b, r') => pChain f (some (match acc with | none => .cmp o a b | some c => .and c (.cmp o a b))) b r'
      | none => none
    else some (acc.getD a, .op o :: r) := by
  conv => lhs; unfold pChain
  rfl

theorem pChain_other {f acc a r} (h : ∀ o s, r ≠ .op o :: s) : pChain (f + 1) acc a r = some (acc.getD a, r) := by
  cases r with
  | nil => simp [pChain]
  | cons t r => cases t <;> simp [pChain] <;> exact absurd rfl (h _ _)

theorem pList_eq {f t} : pList (f + 1) t = match pE f 0 t with
    | some (a, .comma :: r) => match pList f r with
      | some (as, r') => some (a :: as, r')
      | none => none
    | some (a, r) => some ([a], r)
    | none => none := by
  conv => lhs; unfold pList
  rfl

/-- `pLoop` and the like stop in front of `r'`, too. -/
theorem Compat.stop {r r' : List Tok} (h : Compat r r') {P : OpTok → Prop} (hr : ∀ o s, r = .op o :: s → P o) : ∀ o s, r' = .op o :: s → P o := by
  intro o s e
  rcases h with ⟨t, s1, s2, rfl, rfl⟩ | ⟨_, h⟩
  · simp only [List.cons.injEq] at e; exact hr o s1 (by rw [e.1])
  · rcases h with rfl | ⟨t, r1, rfl, h⟩
    · cases e
    · simp only [List.cons.injEq] at e; rcases h with rfl | rfl | rfl <;> cases e.1

structure AllOk' (f : Nat) : Prop where
  e : ∀ l t a r, pE f l t = some (a, r) → l ≤ 10 ∧ ∃ u, t = u ++ r ∧ 1 ≤ u.length ∧ Bal u ∧
    ∀ r', Compat r r' → ∀ g, 14 * u.length ≤ g + l + 3 → pE g l (u ++ r') = some (a, r')
  loop : ∀ l a0 t a r, pLoop f l a0 t = some (a, r) → ∃ u, t = u ++ r ∧ Bal u ∧
    ∀ r', Compat r r' → ∀ g, 14 * u.length + 1 ≤ g → pLoop g l a0 (u ++ r') = some (a, r')
  chain : ∀ c a0 t a r, pChain f c a0 t = some (a, r) → ∃ u, t = u ++ r ∧ Bal u ∧
    ∀ r', Compat r r' → ∀ g, 14 * u.length + 1 ≤ g → pChain g c a0 (u ++ r') = some (a, r')
  list : ∀ t as r, pList f t = some (as, r) → ∃ u, t = u ++ r ∧ 1 ≤ u.length ∧ Bal u ∧
    ∀ r', (∃ t s s', r = t :: s ∧ r' = t :: s') → ∀ g, 14 * u.length ≤ g → pList g (u ++ r') = some (as, r')

theorem opTok_ne {o : OpTok} : (Tok.op o ≠ .lpar) ∧ Tok.op o ≠ .rpar := ⟨nofun, nofun⟩

theorem loop_ok {f : Nat} (ih : AllOk' f) : ∀ l a0 t a r, pLoop (f + 1) l a0 t = some (a, r) → ∃ u, t = u ++ r ∧ Bal u ∧
    ∀ r', Compat r r' → ∀ g, 14 * u.length + 1 ≤ g → pLoop g l a0 (u ++ r') = some (a, r') := by
  intro l a0 t a r h
  have stop : (∀ o s, t = .op o :: s → o.level ≠ some l) → ∃ u, t = u ++ r ∧ Bal u ∧
      ∀ r', Compat r r' → ∀ g, 14 * u.length + 1 ≤ g → pLoop g l a0 (u ++ r') = some (a, r') := by
    intro hs
    have hr : pLoop (f + 1) l a0 t = some (a0, t) := by
      by_cases ho : ∃ o s, t = .op o :: s
      · obtain ⟨o, s, rfl⟩ := ho
        rw [pLoop_op, if_neg (hs o s rfl)]
      · exact pLoop_other (fun o s e => ho ⟨o, s, e⟩)
    rw [hr] at h
    simp only [Option.some.injEq, Prod.mk.injEq] at h
    obtain ⟨rfl, rfl⟩ := h
    refine ⟨[], rfl, .nil, fun r' hc g hg => ?_⟩
    obtain ⟨g, rfl⟩ : ∃ k, g = k + 1 := ⟨g - 1, by omega⟩
    have hs' := hc.stop hs
    by_cases ho : ∃ o s, r' = .op o :: s
    · obtain ⟨o, s, rfl⟩ := ho
      rw [List.nil_append, pLoop_op, if_neg (hs' o s rfl)]
    · exact pLoop_other (fun o s e => ho ⟨o, s, e⟩)
  by_cases ho : ∃ o s, t = .op o :: s ∧ o.level = some l
  · obtain ⟨o, s, rfl, hl⟩ := ho
    rw [pLoop_op, if_pos hl] at h
    split at h
    · rename_i b r1 h1
      obtain ⟨_, u1, rfl, hu1, hb1, p1⟩ := ih.e _ _ _ _ h1
      obtain ⟨u2, rfl, hb2, p2⟩ := ih.loop _ _ _ _ _ h
      refine ⟨.op o :: (u1 ++ u2), by simp, .cons opTok_ne.1 opTok_ne.2 (hb1.append hb2), fun r' hc g hg => ?_⟩
      simp only [List.length_cons, List.length_append] at hg
      obtain ⟨g, rfl⟩ : ∃ k, g = k + 1 := ⟨g - 1, by omega⟩
      rw [List.cons_append, List.append_assoc, pLoop_op, if_pos hl, p1 _ (hc.app u2) g (by omega)]
      exact p2 _ hc g (by omega)
    · cases h
  · exact stop (fun o s e hl => ho ⟨o, s, e, hl⟩)

theorem chain_ok {f : Nat} (ih : AllOk' f) : ∀ c a0 t a r, pChain (f + 1) c a0 t = some (a, r) → ∃ u, t = u ++ r ∧ Bal u ∧
    ∀ r', Compat r r' → ∀ g, 14 * u.length + 1 ≤ g → pChain g c a0 (u ++ r') = some (a, r') := by
  intro c a0 t a r h
  have stop : (∀ o s, t = .op o :: s → o.level ≠ some 3) → ∃ u, t = u ++ r ∧ Bal u ∧
      ∀ r', Compat r r' → ∀ g, 14 * u.length + 1 ≤ g → pChain g c a0 (u ++ r') = some (a, r') := by
    intro hs
    have hr : pChain (f + 1) c a0 t = some (c.getD a0, t) := by
      by_cases ho : ∃ o s, t = .op o :: s
      · obtain ⟨o, s, rfl⟩ := ho
        rw [pChain_op, if_neg (hs o s rfl)]
      · exact pChain_other (fun o s e => ho ⟨o, s, e⟩)
    rw [hr] at h
    simp only [Option.some.injEq, Prod.mk.injEq] at h
    obtain ⟨rfl, rfl⟩ := h
    refine ⟨[], rfl, .nil, fun r' hc g hg => ?_⟩
    obtain ⟨g, rfl⟩ : ∃ k, g = k + 1 := ⟨g - 1, by omega⟩
    have hs' := hc.stop hs
    by_cases ho : ∃ o s, r' = .op o :: s
    · obtain ⟨o, s, rfl⟩ := ho
      rw [List.nil_append, pChain_op, if_neg (hs' o s rfl)]
    · exact pChain_other (fun o s e => ho ⟨o, s, e⟩)
  by_cases ho : ∃ o s, t = .op o :: s ∧ o.level = some 3
  · obtain ⟨o, s, rfl, hl⟩ := ho
    rw [pChain_op, if_pos hl] at h
    split at h
    · rename_i b r1 h1
      obtain ⟨_, u1, rfl, hu1, hb1, p1⟩ := ih.e _ _ _ _ h1
      obtain ⟨u2, rfl, hb2, p2⟩ := ih.chain _ _ _ _ _ h
      refine ⟨.op o :: (u1 ++ u2), by simp, .cons opTok_ne.1 opTok_ne.2 (hb1.append hb2), fun r' hc g hg => ?_⟩
      simp only [List.length_cons, List.length_append] at hg
      obtain ⟨g, rfl⟩ : ∃ k, g = k + 1 := ⟨g - 1, by omega⟩
      rw [List.cons_append, List.append_assoc, pChain_op, if_pos hl, p1 _ (hc.app u2) g (by omega)]
      exact p2 _ hc g (by omega)
    · cases h
  · exact stop (fun o s e hl => ho ⟨o, s, e, hl⟩)

theorem list_ok {f : Nat} (ih : AllOk' f) : ∀ t as r, pList (f + 1) t = some (as, r) → ∃ u, t = u ++ r ∧ 1 ≤ u.length ∧ Bal u ∧
    ∀ r', (∃ t s s', r = t :: s ∧ r' = t :: s') → ∀ g, 14 * u.length ≤ g → pList g (u ++ r') = some (as, r') := by
  intro t as r h
  rw [pList_eq] at h
  split at h
  · rename_i a r1 h1
    split at h
    · rename_i bs r2 h2
      simp only [Option.some.injEq, Prod.mk.injEq] at h
      obtain ⟨rfl, rfl⟩ := h
      obtain ⟨_, u1, rfl, hu1, hb1, p1⟩ := ih.e _ _ _ _ h1
      obtain ⟨u2, rfl, hu2, hb2, p2⟩ := ih.list _ _ _ h2
      refine ⟨u1 ++ .comma :: u2, by simp, by simp; omega, hb1.append (.cons nofun nofun hb2), fun r' hc g hg => ?_⟩
      simp only [List.length_cons, List.length_append] at hg
      obtain ⟨g, rfl⟩ : ∃ k, g = k + 1 := ⟨g - 1, by omega⟩
      rw [List.append_assoc, List.cons_append, pList_eq, p1 _ (.head _ _ _) g (by omega)]
      simp only [p2 _ hc g (by omega)]
    · cases h
  · rename_i a r1 hne h1
    simp only [Option.some.injEq, Prod.mk.injEq] at h
    obtain ⟨rfl, rfl⟩ := h
    obtain ⟨_, u1, rfl, hu1, hb1, p1⟩ := ih.e _ _ _ _ h1
    refine ⟨u1, rfl, hu1, hb1, fun r' hc g hg => ?_⟩
    obtain ⟨g, rfl⟩ : ∃ k, g = k + 1 := ⟨g - 1, by omega⟩
    rw [pList_eq, p1 _ (.inl hc) g (by omega)]
    obtain ⟨t, s, s', rfl, rfl⟩ := hc
    split
    · rename_i e
      simp only [Option.some.injEq, Prod.mk.injEq, List.cons.injEq] at e
      exact absurd (by rw [e.2.1]) (hne s)
    · rename_i e
      simp only [Option.some.injEq, Prod.mk.injEq] at e
      rw [e.1, e.2]
    · rename_i e; cases e
  · cases h

theorem headNot_of {u r : List Tok} {o : OpTok} (h : headNot (u ++ r) o) (hu : 1 ≤ u.length) (r' : List Tok) : headNot (u ++ r') o := by
  cases u with
  | nil => simp at hu
  | cons t u => intro s e; simp only [List.cons_append, List.cons.injEq] at e; exact h (u ++ r) (by simp [e.1])

theorem Compat.not_head {r r' : List Tok} (h : Compat r r') {t : Tok} (ht : t ≠ .rpar ∧ t ≠ .rbrk ∧ t ≠ .comma) (hr : ∀ s, r ≠ t :: s) : ∀ s, r' ≠ t :: s := by
  intro s e
  rcases h with ⟨t', s1, s2, rfl, rfl⟩ | ⟨_, h⟩
  · simp only [List.cons.injEq] at e; exact hr s1 (by rw [e.1])
  · rcases h with rfl | ⟨t', r1, rfl, h⟩
    · cases e
    · simp only [List.cons.injEq] at e
      obtain ⟨rfl, _⟩ := e
      rcases h with rfl | rfl | rfl <;> simp at ht

/-- The conclusion for `pE`. -/
def EOk (l : Nat) (t : List Tok) (a : Ast) (r : List Tok) : Prop := l ≤ 10 ∧ ∃ u, t = u ++ r ∧ 1 ≤ u.length ∧ Bal u ∧
    ∀ r', Compat r r' → ∀ g, 14 * u.length ≤ g + l + 3 → pE g l (u ++ r') = some (a, r')

theorem atom_ok {f : Nat} (ih : AllOk' f) : ∀ t a r, pE (f + 1) 10 t = some (a, r) → EOk 10 t a r := by
  intro t a r h
  refine ⟨by omega, ?_⟩
  cases t with
  | nil => rw [pE_10_other (by simp) (by simp) (by simp)] at h; cases h
  | cons t ts =>
    cases t with
    | num n =>
      rw [pE_10_num] at h
      simp only [Option.some.injEq, Prod.mk.injEq] at h
      obtain ⟨rfl, rfl⟩ := h
      refine ⟨[.num n], rfl, by simp, .single nofun nofun, fun r' _ g hg => ?_⟩
      simp only [List.length_singleton] at hg
      obtain ⟨g, rfl⟩ : ∃ k, g = k + 1 := ⟨g - 1, by omega⟩
      exact pE_10_num
    | lpar =>
      rw [pE_10_lpar] at h
      split at h
      · rename_i b r1 h1
        simp only [Option.some.injEq, Prod.mk.injEq] at h
        obtain ⟨rfl, rfl⟩ := h
        obtain ⟨_, u1, rfl, hu1, hb1, p1⟩ := ih.e _ _ _ _ h1
        refine ⟨.lpar :: u1 ++ [.rpar], by simp, by simp, hb1.paren, fun r' hc g hg => ?_⟩
        simp only [List.length_cons, List.length_append, List.length_nil] at hg
        obtain ⟨g, rfl⟩ : ∃ k, g = k + 1 := ⟨g - 1, by omega⟩
        simp only [List.cons_append, List.append_assoc, List.nil_append]
        rw [pE_10_lpar, p1 _ (.head _ _ _) g (by omega)]
      · cases h
    | name x =>
      by_cases h1 : ∃ s, ts = .lpar :: s
      · obtain ⟨s, rfl⟩ := h1
        by_cases h2 : ∃ s', s = .lbrk :: s'
        · obtain ⟨s, rfl⟩ := h2
          rw [pE_10_list] at h
          split at h
          · rename_i as r1 h1
            simp only [Option.some.injEq, Prod.mk.injEq] at h
            obtain ⟨rfl, rfl⟩ := h
            obtain ⟨u1, rfl, hu1, hb1, p1⟩ := ih.list _ _ _ h1
            refine ⟨.name x :: .lpar :: .lbrk :: (u1 ++ [.rbrk, .rpar]), by simp, by simp, ?_, fun r' hc g hg => ?_⟩
            · refine .cons nofun nofun ?_
              have : Bal (.lbrk :: (u1 ++ [.rbrk])) := .cons nofun nofun (hb1.append (.single nofun nofun))
              simpa using this.paren
            · simp only [List.length_cons, List.length_append, List.length_nil] at hg
              obtain ⟨g, rfl⟩ : ∃ k, g = k + 1 := ⟨g - 1, by omega⟩
              simp only [List.cons_append, List.append_assoc, List.nil_append]
              rw [pE_10_list, p1 _ ⟨.rbrk, _, _, rfl, rfl⟩ g (by omega)]
          · cases h
        · rw [pE_10_call (fun s' e => h2 ⟨s', e⟩)] at h
          split at h
          · rename_i b r1 h1
            simp only [Option.some.injEq, Prod.mk.injEq] at h
            obtain ⟨rfl, rfl⟩ := h
            obtain ⟨_, u1, rfl, hu1, hb1, p1⟩ := ih.e _ _ _ _ h1
            refine ⟨.name x :: .lpar :: (u1 ++ [.rpar]), by simp, by simp, .cons nofun nofun hb1.paren, fun r' hc g hg => ?_⟩
            simp only [List.length_cons, List.length_append, List.length_nil] at hg
            obtain ⟨g, rfl⟩ : ∃ k, g = k + 1 := ⟨g - 1, by omega⟩
            simp only [List.cons_append, List.append_assoc, List.nil_append]
            rw [pE_10_call, p1 _ (.head _ _ _) g (by omega)]
            intro s' e
            cases u1 with
            | nil => simp at hu1
            | cons y u1 =>
              simp only [List.cons_append, List.cons.injEq] at e
              exact h2 ⟨_, by rw [List.cons_append, e.1]⟩
          · cases h
      · have h1 : ∀ s, ts ≠ .lpar :: s := fun s e => h1 ⟨s, e⟩
        rw [pE_10_name h1] at h
        have hr : ts = r := by split_ifs at h <;> simp_all
        subst hr
        refine ⟨[.name x], rfl, by simp, .single nofun nofun, fun r' hc g hg => ?_⟩
        simp only [List.length_singleton] at hg
        obtain ⟨g, rfl⟩ : ∃ k, g = k + 1 := ⟨g - 1, by omega⟩
        rw [List.singleton_append, pE_10_name (hc.not_head (by simp) h1)]
        split_ifs at h ⊢ <;> simp_all
    | _ => rw [pE_10_other (by simp) (by simp) (by simp)] at h; cases h

theorem e_ok {f : Nat} (ih : AllOk' f) : ∀ l t a r, pE (f + 1) l t = some (a, r) → EOk l t a r := by
  intro l t a r h
  by_cases hl : 10 < l
  · rw [pE_high hl] at h; cases h
  have left : (l = 0 ∨ l = 1 ∨ l = 4 ∨ l = 5 ∨ l = 6 ∨ l = 7) → EOk l t a r := by
    intro h7
    rw [pE_left h7] at h
    split at h
    · rename_i b r1 h1
      obtain ⟨_, u1, rfl, hu1, hb1, p1⟩ := ih.e _ _ _ _ h1
      obtain ⟨u2, rfl, hb2, p2⟩ := ih.loop _ _ _ _ _ h
      refine ⟨by omega, u1 ++ u2, by simp, by simp; omega, hb1.append hb2, fun r' hc g hg => ?_⟩
      simp only [List.length_append] at hg
      obtain ⟨g, rfl⟩ : ∃ k, g = k + 1 := ⟨g - 1, by omega⟩
      rw [List.append_assoc, pE_left h7, p1 _ (hc.app u2) g (by omega)]
      exact p2 _ hc g (by omega)
    · cases h
  match l, hl with
  | 0, _ | 1, _ | 4, _ | 5, _ | 6, _ | 7, _ => exact left (by simp)
  | 2, _ =>
    by_cases hn : ∃ s, t = .op .not :: s
    · obtain ⟨s, rfl⟩ := hn
      rw [pE_2n] at h
      split at h
      · rename_i b r1 h1
        simp only [Option.some.injEq, Prod.mk.injEq] at h
        obtain ⟨rfl, rfl⟩ := h
        obtain ⟨_, u1, rfl, hu1, hb1, p1⟩ := ih.e _ _ _ _ h1
        refine ⟨by omega, .op .not :: u1, rfl, by simp, .cons nofun nofun hb1, fun r' hc g hg => ?_⟩
        simp only [List.length_cons] at hg
        obtain ⟨g, rfl⟩ : ∃ k, g = k + 1 := ⟨g - 1, by omega⟩
        rw [List.cons_append, pE_2n, p1 _ hc g (by omega)]
      · cases h
    · have hn : headNot t .not := fun s e => hn ⟨s, e⟩
      rw [pE_2 hn] at h
      obtain ⟨_, u1, rfl, hu1, hb1, p1⟩ := ih.e _ _ _ _ h
      refine ⟨by omega, u1, rfl, hu1, hb1, fun r' hc g hg => ?_⟩
      obtain ⟨g, rfl⟩ : ∃ k, g = k + 1 := ⟨g - 1, by omega⟩
      rw [pE_2 (headNot_of hn hu1 r')]
      exact p1 _ hc g (by omega)
  | 3, _ =>
    rw [pE_3] at h
    split at h
    · rename_i b r1 h1
      obtain ⟨_, u1, rfl, hu1, hb1, p1⟩ := ih.e _ _ _ _ h1
      obtain ⟨u2, rfl, hb2, p2⟩ := ih.chain _ _ _ _ _ h
      refine ⟨by omega, u1 ++ u2, by simp, by simp; omega, hb1.append hb2, fun r' hc g hg => ?_⟩
      simp only [List.length_append] at hg
      obtain ⟨g, rfl⟩ : ∃ k, g = k + 1 := ⟨g - 1, by omega⟩
      rw [List.append_assoc, pE_3, p1 _ (hc.app u2) g (by omega)]
      exact p2 _ hc g (by omega)
    · cases h
  | 8, _ =>
    by_cases hn : ∃ s, t = .op .minus :: s
    · obtain ⟨s, rfl⟩ := hn
      rw [pE_8m] at h
      split at h
      · rename_i b r1 h1
        simp only [Option.some.injEq, Prod.mk.injEq] at h
        obtain ⟨rfl, rfl⟩ := h
        obtain ⟨_, u1, rfl, hu1, hb1, p1⟩ := ih.e _ _ _ _ h1
        refine ⟨by omega, .op .minus :: u1, rfl, by simp, .cons nofun nofun hb1, fun r' hc g hg => ?_⟩
        simp only [List.length_cons] at hg
        obtain ⟨g, rfl⟩ : ∃ k, g = k + 1 := ⟨g - 1, by omega⟩
        rw [List.cons_append, pE_8m, p1 _ hc g (by omega)]
      · cases h
    · have hn : headNot t .minus := fun s e => hn ⟨s, e⟩
      rw [pE_8 hn] at h
      obtain ⟨_, u1, rfl, hu1, hb1, p1⟩ := ih.e _ _ _ _ h
      refine ⟨by omega, u1, rfl, hu1, hb1, fun r' hc g hg => ?_⟩
      obtain ⟨g, rfl⟩ : ∃ k, g = k + 1 := ⟨g - 1, by omega⟩
      rw [pE_8 (headNot_of hn hu1 r')]
      exact p1 _ hc g (by omega)
  | 9, _ =>
    rw [pE_9] at h
    split at h
    · rename_i b r1 h1
      split at h
      · rename_i b' r2 h2
        simp only [Option.some.injEq, Prod.mk.injEq] at h
        obtain ⟨rfl, rfl⟩ := h
        obtain ⟨_, u1, rfl, hu1, hb1, p1⟩ := ih.e _ _ _ _ h1
        obtain ⟨_, u2, rfl, hu2, hb2, p2⟩ := ih.e _ _ _ _ h2
        refine ⟨by omega, u1 ++ .op .dstar :: u2, by simp, by simp; omega, hb1.append (.cons nofun nofun hb2), fun r' hc g hg => ?_⟩
        simp only [List.length_append, List.length_cons] at hg
        obtain ⟨g, rfl⟩ : ∃ k, g = k + 1 := ⟨g - 1, by omega⟩
        rw [List.append_assoc, List.cons_append, pE_9, p1 _ (.head _ _ _) g (by omega)]
        simp only [p2 _ hc g (by omega)]
      · cases h
    · rename_i hne
      obtain ⟨_, u1, rfl, hu1, hb1, p1⟩ := ih.e _ _ _ _ h
      refine ⟨by omega, u1, rfl, hu1, hb1, fun r' hc g hg => ?_⟩
      obtain ⟨g, rfl⟩ : ∃ k, g = k + 1 := ⟨g - 1, by omega⟩
      rw [pE_9, p1 _ hc g (by omega)]
      have : ∀ s, r' ≠ .op .dstar :: s := hc.not_head (by simp) (fun s e => hne a s (by rw [h, e]))
      split
      · rename_i e; simp only [Option.some.injEq, Prod.mk.injEq] at e; exact absurd e.2 (this _)
      · rfl
  | 10, _ => exact atom_ok ih t a r h
  | l + 11, hl => omega

theorem parser_ok (f : Nat) : AllOk' f := by
  induction f with
  | zero => exact ⟨by simp [pE], by simp [pLoop], by simp [pChain], by simp [pList]⟩
  | succ f ih => exact ⟨e_ok ih, loop_ok ih, chain_ok ih, list_ok ih⟩

/-- The fuel of `parseBody` is always enough, and what it accepts is a phrase. -/
theorem parse_phrase {f : Nat} {t a r} (h : pE f 0 t = some (a, r)) (hr : StopTok r) : ∃ u, t = u ++ r ∧ Bal u ∧ Phrase0 u a := by
  obtain ⟨_, u, rfl, hu, hb, p⟩ := (parser_ok f).e _ _ _ _ h
  refine ⟨u, rfl, hb, hu, fun r' hs g hg => p r' (.inr ⟨hr, ?_⟩) g (by omega)⟩
  cases r' with
  | nil => exact .inl rfl
  | cons t r' =>
    refine .inr ⟨t, r', rfl, ?_⟩
    cases t with
    | op o => cases o <;> simp [stopB, OpTok.level] at hs
    | _ => simp [stopB] at hs ⊢

theorem parseBody_iff {t a} : parseBody t = some a ↔ Phrase0 t a := by
  constructor
  · intro h
    rw [parseBody] at h
    split at h
    · rename_i b h1
      cases h
      obtain ⟨u, e, _, hp⟩ := parse_phrase h1 (.inl rfl)
      rw [List.append_nil] at e
      exact e ▸ hp
    · cases h
  · exact parseBody_ok

theorem pE_lpar {f l ts res} (hl : l ≤ 10) (h : pE f l (.lpar :: ts) = some res) : ∃ g x, pE g 10 (.lpar :: ts) = some x := by
  induction f generalizing l res with
  | zero => simp [pE] at h
  | succ f ih =>
    have left : (l = 0 ∨ l = 1 ∨ l = 4 ∨ l = 5 ∨ l = 6 ∨ l = 7) → ∃ g x, pE g 10 (.lpar :: ts) = some x := by
      intro h7
      rw [pE_left h7] at h
      split at h
      · rename_i h1; exact ih (by omega) h1
      · cases h
    match l, hl with
    | 0, _ | 1, _ | 4, _ | 5, _ | 6, _ | 7, _ => exact left (by simp)
    | 2, _ => rw [pE_2 (by intro r; simp)] at h; exact ih (by omega) h
    | 3, _ =>
      rw [pE_3] at h
      split at h
      · rename_i h1; exact ih (by omega) h1
      · cases h
    | 8, _ => rw [pE_8 (by intro r; simp)] at h; exact ih (by omega) h
    | 9, _ =>
      rw [pE_9] at h
      split at h
      · rename_i h1; exact ih (by omega) h1
      · exact ih (by omega) h
    | 10, _ => exact ⟨_, _, h⟩

/-- Brackets around a text with balanced brackets. -/
theorem parse_paren {t : List Tok} (hb : Bal t) : parseBody (.lpar :: t ++ [.rpar]) = parseBody t := by
  have one : ∀ a, parseBody t = some a → parseBody (.lpar :: t ++ [.rpar]) = some a := fun a h =>
    parseBody_iff.2 (Phrase.paren (parseBody_iff.1 h)).zero
  cases h : parseBody (.lpar :: t ++ [.rpar]) with
  | none =>
    cases h' : parseBody t with
    | none => rfl
    | some a => rw [one a h'] at h; cases h
  | some a =>
    have hp := (parseBody_iff.1 h).2 [] rfl _ (Nat.le_refl _)
    rw [List.append_nil, List.cons_append] at hp
    obtain ⟨g, x, hg⟩ := pE_lpar (by omega) hp
    cases g with
    | zero => simp [pE] at hg
    | succ g =>
      rw [pE_10_lpar] at hg
      split at hg
      · rename_i b r1 h1
        obtain ⟨u, e, hu, hp⟩ := parse_phrase h1 (.inr ⟨_, _, rfl, .inl rfl⟩)
        have : r1 = [] := by
          cases hr : r1.reverse with
          | nil => simpa using hr
          | cons y r2 =>
            exfalso
            have hr1 : r1 = r2.reverse ++ [y] := by rw [← List.reverse_reverse r1, hr]; simp
            rw [hr1, ← List.cons_append, ← List.append_assoc] at e
            have e1 := (List.append_inj' e rfl).1
            have := hb 0 []
            rw [List.append_nil, e1, hu] at this
            simp [depth] at this
        subst this
        have e1 := (List.append_inj' e rfl).1
        subst e1
        have := parseBody_iff.2 hp
        rw [this, ← h, one _ this]
      · cases hg

end Satisfy
