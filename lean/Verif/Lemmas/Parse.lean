import Verif.Compile
/-!
# The parser on well-bracketed texts

`Phrase t L a`: the tokens `t` form a phrase of level `L` that the parser reads as `a`, whatever
follows (as long as what follows cannot continue the phrase), with fuel linear in the length.
-/

namespace Satisfy

/-- What may follow a phrase of level `l`. -/
def stopB (l : Nat) : List Tok → Bool
  | [] => true
  | .rpar :: _ | .rbrk :: _ | .comma :: _ => true
  | .op o :: _ => match o.level with
    | some m => decide (m < l)
    | none => false
  | _ => false

theorem stopB_mono {l l' : Nat} (h : l ≤ l') {r : List Tok} (hs : stopB l r = true) : stopB l' r = true := by
  cases r with
  | nil => rfl
  | cons t r =>
    cases t <;> simp_all [stopB]
    rename_i o
    cases ho : o.level <;> simp_all
    omega

def headNot (t : List Tok) (o : OpTok) : Prop := ∀ r, t ≠ .op o :: r

def Parses (N l : Nat) (t : List Tok) (a : Ast) (r : List Tok) : Prop :=
  ∀ f, N ≤ f → pE f l t = some (a, r)

theorem Parses.mono {N N' l t a r} (h : Parses N l t a r) (hN : N ≤ N') : Parses N' l t a r :=
  fun f hf => h f (by omega)

theorem pLoop_stop {f l a r} (hs : stopB l r = true) : pLoop (f + 1) l a r = some (a, r) := by
  cases r with
  | nil => simp [pLoop]
  | cons t r =>
    cases t <;> simp [pLoop]
    rename_i o
    intro h
    simp [stopB, h] at hs

theorem pChain_stop {f c a r} (hs : stopB 3 r = true) : pChain (f + 1) c a r = some (c.getD a, r) := by
  cases r with
  | nil => simp [pChain]
  | cons t r =>
    cases t <;> simp [pChain]
    rename_i o
    intro h
    simp [stopB, h] at hs

theorem pE_left {f l t} (h : l = 0 ∨ l = 1 ∨ l = 4 ∨ l = 5 ∨ l = 6 ∨ l = 7) :
    pE (f + 1) l t = match pE f (l + 1) t with
      | some (a, r) => pLoop f l a r
      | none => none := by
  rcases h with rfl | rfl | rfl | rfl | rfl | rfl <;> (conv => lhs; unfold pE) <;> rfl

theorem pE_2 {f t} (h : headNot t .not) : pE (f + 1) 2 t = pE f 3 t := by
  conv => lhs; unfold pE
  cases t with
  | nil => rfl
  | cons x t =>
    cases x with
    | op o => cases o <;> first | rfl | exact absurd rfl (h _)
    | _ => rfl

theorem pE_2n {f t} : pE (f + 1) 2 (.op .not :: t) = match pE f 2 t with
    | some (a, r') => some (.not a, r')
    | none => none := by
  conv => lhs; unfold pE
  rfl

theorem pE_3 {f t} : pE (f + 1) 3 t = match pE f 4 t with
    | some (a, r) => pChain f none a r
    | none => none := by
  conv => lhs; unfold pE
  rfl

theorem pE_8 {f t} (h : headNot t .minus) : pE (f + 1) 8 t = pE f 9 t := by
  conv => lhs; unfold pE
  cases t with
  | nil => rfl
  | cons x t =>
    cases x with
    | op o => cases o <;> first | rfl | exact absurd rfl (h _)
    | _ => rfl

theorem pE_8m {f t} : pE (f + 1) 8 (.op .minus :: t) = match pE f 8 t with
    | some (a, r') => some (.neg a, r')
    | none => none := by
  conv => lhs; unfold pE
  rfl

theorem pE_9 {f t} : pE (f + 1) 9 t = match pE f 10 t with
      | some (a, .op .dstar :: r) => match pE f 8 r with
        | some (b, r') => some (.bin .dstar a b, r')
        | none => none
      | res => res := by
  conv => lhs; unfold pE
  rfl

theorem down {N l t a r} (hl : l < 10) (hN : 1 ≤ N) (h : Parses N (l + 1) t a r) (hs : stopB l r = true)
    (h2 : l = 2 → headNot t .not) (h8 : l = 8 → headNot t .minus) : Parses (N + 1) l t a r := by
  intro f hf
  obtain ⟨f, rfl⟩ : ∃ g, f = g + 2 := ⟨f - 2, by omega⟩
  have hp := h (f + 1) (by omega)
  have loop : ∀ l, stopB l r = true → pLoop (f + 1) l a r = some (a, r) := fun l h => pLoop_stop h
  match l, hl with
  | 0, _ | 1, _ | 4, _ | 5, _ | 6, _ | 7, _ => rw [pE_left (by simp)]; simp [hp, loop _ hs]
  | 2, _ => rw [pE_2 (h2 rfl)]; exact hp
  | 3, _ => rw [pE_3]; simp [hp, pChain_stop hs]
  | 8, _ => rw [pE_8 (h8 rfl)]; exact hp
  | 9, _ =>
    rw [pE_9]; simp only [hp]
    split
    · rename_i heq; simp at heq; obtain ⟨rfl, rfl⟩ := heq; simp [stopB, OpTok.level] at hs
    · rfl

theorem downTo' {N t a r} (hN : 1 ≤ N) (d l : Nat) (hL : l + d ≤ 10) (h : Parses N (l + d) t a r)
    (hs : stopB l r = true) (h2 : l ≤ 2 → 2 < l + d → headNot t .not) (h8 : l ≤ 8 → 8 < l + d → headNot t .minus) :
    Parses (N + d) l t a r := by
  induction d generalizing l with
  | zero => simpa using h
  | succ d ih =>
    have := ih (l + 1) (by omega) (by rw [show l + 1 + d = l + (d + 1) by omega]; exact h)
      (stopB_mono (by omega) hs) (fun _ _ => h2 (by omega) (by omega)) (fun _ _ => h8 (by omega) (by omega))
    have := down (l := l) (by omega) (by omega) this hs (fun e => h2 (by omega) (by omega)) (fun e => h8 (by omega) (by omega))
    exact this.mono (by omega)

theorem downTo {N L l t a r} (hL : L ≤ 10) (hl : l ≤ L) (hN : 1 ≤ N) (h : Parses N L t a r) (hs : stopB l r = true)
    (h2 : l ≤ 2 → 2 < L → headNot t .not) (h8 : l ≤ 8 → 8 < L → headNot t .minus) :
    Parses (N + (L - l)) l t a r := by
  obtain ⟨d, rfl⟩ : ∃ d, L = l + d := ⟨L - l, by omega⟩
  rw [show l + d - l = d by omega]
  exact downTo' hN d l hL h hs h2 h8

/-- A phrase of level `L`. -/
structure Phrase (t : List Tok) (L : Nat) (a : Ast) : Prop where
  le : L ≤ 10
  pos : 1 ≤ t.length
  parse : ∀ r, stopB L r = true → Parses (14 * t.length - 10) L (t ++ r) a r
  h2 : 2 < L → headNot t .not
  h8 : 8 < L → headNot t .minus

/-- A phrase that can stand between brackets, in a list, or alone. -/
def Phrase0 (t : List Tok) (a : Ast) : Prop :=
  1 ≤ t.length ∧ ∀ r, stopB 0 r = true → Parses (14 * t.length) 0 (t ++ r) a r

theorem headNot_append {t r : List Tok} {o} (h : headNot t o) (hp : 1 ≤ t.length) : headNot (t ++ r) o := by
  cases t with
  | nil => simp at hp
  | cons x t => intro r' e; simp at e; exact h t (by rw [e.1])

theorem Phrase.at_level {t L a} (h : Phrase t L a) {l : Nat} (hl : l ≤ L) {r} (hs : stopB l r = true) :
    Parses (14 * t.length) l (t ++ r) a r := by
  have hp := h.pos
  have hle := h.le
  refine (downTo h.le hl (by omega) (h.parse r (stopB_mono hl hs)) hs
    (fun _ h2 => headNot_append (h.h2 h2) hp) (fun _ h8 => headNot_append (h.h8 h8) hp)).mono ?_
  omega

theorem Phrase.at_level' {t L a} (h : Phrase t L a) {l : Nat} (hl : l ≤ L) (h1 : 1 ≤ l) {r} (hs : stopB l r = true) :
    Parses (14 * t.length - 1) l (t ++ r) a r := by
  have hp := h.pos
  have hle := h.le
  refine (downTo h.le hl (by omega) (h.parse r (stopB_mono hl hs)) hs
    (fun _ h2 => headNot_append (h.h2 h2) hp) (fun _ h8 => headNot_append (h.h8 h8) hp)).mono ?_
  omega

theorem Phrase.zero {t L a} (h : Phrase t L a) : Phrase0 t a :=
  ⟨h.pos, fun _ hs => h.at_level (Nat.zero_le _) hs⟩

theorem Phrase.num (n : Nat) : Phrase [.num n] 10 (.num n) where
  le := by omega
  pos := by simp
  parse := by
    intro r _ f hf
    obtain ⟨f, rfl⟩ : ∃ g, f = g + 1 := ⟨f - 1, by simp at hf; omega⟩
    simp [pE]
  h2 := by intro _ r; simp
  h8 := by intro _ r; simp

theorem Phrase.name {x : Name} (hx : x ∉ pyKeywords) : Phrase [.name x] 10 (.name x) where
  le := by omega
  pos := by simp
  parse := by
    intro r hs f hf
    obtain ⟨f, rfl⟩ : ∃ g, f = g + 1 := ⟨f - 1, by simp at hf; omega⟩
    have h1 : x ≠ "True" := by rintro rfl; exact hx (by decide)
    have h2 : x ≠ "False" := by rintro rfl; exact hx (by decide)
    cases r with
    | nil => simp [pE, h1, h2, hx]
    | cons t r => cases t <;> simp_all [pE, stopB]
  h2 := by intro _ r; simp
  h8 := by intro _ r; simp

theorem Phrase.minus {t a} {L : Nat} (h : Phrase t L a) (hL : 8 ≤ L) : Phrase (.op .minus :: t) 8 (.neg a) where
  le := by omega
  pos := by simp
  parse := by
    intro r hs f hf
    obtain ⟨f, rfl⟩ : ∃ g, f = g + 1 := ⟨f - 1, by simp at hf; omega⟩
    have := h.at_level hL hs f (by simp at hf; omega)
    rw [List.cons_append, pE_8m, this]
  h2 := by intro _ r; simp
  h8 := by intro h; omega

theorem Phrase.not {t a} {L : Nat} (h : Phrase t L a) (hL : 2 ≤ L) : Phrase (.op .not :: t) 2 (.not a) where
  le := by omega
  pos := by simp
  parse := by
    intro r hs f hf
    obtain ⟨f, rfl⟩ : ∃ g, f = g + 1 := ⟨f - 1, by simp at hf; omega⟩
    have := h.at_level hL hs f (by simp at hf; omega)
    rw [List.cons_append, pE_2n, this]
  h2 := by intro h; omega
  h8 := by intro h; omega

theorem Phrase.paren {t a} (h : Phrase0 t a) : Phrase (.lpar :: t ++ [.rpar]) 10 a where
  le := by omega
  pos := by simp
  parse := by
    intro r hs f hf
    obtain ⟨f, rfl⟩ : ∃ g, f = g + 1 := ⟨f - 1, by simp at hf; omega⟩
    have := h.2 (.rpar :: r) rfl f (by simp at hf; omega)
    simp [pE, this]
  h2 := by intro _ r; simp
  h8 := by intro _ r; simp

theorem Phrase.call {t a} (h : Phrase0 t a) (x : Name) (hb : ∀ r, t ≠ .lbrk :: r) :
    Phrase (.name x :: .lpar :: t ++ [.rpar]) 10 (.call x a) where
  le := by omega
  pos := by simp
  parse := by
    intro r hs f hf
    obtain ⟨f, rfl⟩ : ∃ g, f = g + 1 := ⟨f - 1, by simp at hf; omega⟩
    have := h.2 (.rpar :: r) rfl f (by simp at hf; omega)
    obtain ⟨y, t, rfl⟩ : ∃ y t', t = y :: t' := by
      cases t with
      | nil => simp [Phrase0] at h
      | cons y t => exact ⟨y, t, rfl⟩
    have hy : y ≠ .lbrk := by rintro rfl; exact hb t rfl
    simp only [List.cons_append, List.append_assoc, List.nil_append] at this ⊢
    rw [pE]
    split
    · simp_all
    · simp_all
    · simp_all
  h2 := by intro _ r; simp
  h8 := by intro _ r; simp

/-- A binary operation of a left associative level, not bracketed. -/
theorem bin_phrase {o m tl tr al ar} {L R : Nat} (ho : o.level = some m) (hm : m = 1 ∨ m = 6 ∨ m = 7 ∨ m = 3)
    (hl : Phrase tl L al) (hr : Phrase tr R ar) (hL : m + 1 ≤ L) (hR : m + 1 ≤ R) :
    Phrase0 (tl ++ .op o :: tr) (mkBin o al ar) := by
  have h1 := hl.pos
  have h2 := hr.pos
  refine ⟨by simp; omega, fun r hs => ?_⟩
  have base : Parses (14 * (tl.length + tr.length) + 2) m (tl ++ .op o :: tr ++ r) (mkBin o al ar) r := by
    intro f hf
    obtain ⟨f, rfl⟩ : ∃ g, f = g + 3 := ⟨f - 3, by omega⟩
    have e1 := hl.at_level hL (r := .op o :: tr ++ r) (by simp [stopB, ho]) (f + 2) (by omega)
    have e2 := hr.at_level hR (stopB_mono (Nat.zero_le _) hs) (f + 1) (by omega)
    have hs' : ∀ m, stopB m r = true := fun m => stopB_mono (Nat.zero_le m) hs
    have e2' := hr.at_level hR (r := r) (hs' _) (f + 1) (by omega)
    simp only [List.cons_append] at e1
    rw [List.append_assoc, List.cons_append]
    rcases hm with rfl | rfl | rfl | rfl
    · rw [pE_left (by simp)]; simp only [e1, pLoop, ho, if_pos, e2']; exact pLoop_stop (hs' _)
    · rw [pE_left (by simp)]; simp only [e1, pLoop, ho, if_pos, e2']; exact pLoop_stop (hs' _)
    · rw [pE_left (by simp)]; simp only [e1, pLoop, ho, if_pos, e2']; exact pLoop_stop (hs' _)
    · rw [pE_3]; simp only [e1, pChain, ho, if_pos, e2']
      rw [pChain_stop (hs' _)]
      cases o <;> simp_all [mkBin, OpTok.level]
  have hm' : m ≤ 7 := by omega
  refine (downTo (L := m) (l := 0) (by omega) (by omega) (by omega) base hs ?_ ?_).mono (by simp; omega)
  · intro _ h; exact headNot_append (headNot_append (hl.h2 (by omega)) h1) (by simp; omega)
  · intro _ h; omega

theorem pow_phrase {tl tr al ar} {R : Nat} (hl : Phrase tl 10 al) (hr : Phrase tr R ar) (hR : 8 ≤ R) :
    Phrase0 (tl ++ .op .dstar :: tr) (.bin .dstar al ar) := by
  have h1 := hl.pos
  have h2 := hr.pos
  refine ⟨by simp; omega, fun r hs => ?_⟩
  have hs' : ∀ m, stopB m r = true := fun m => stopB_mono (Nat.zero_le m) hs
  have base : Parses (14 * (tl.length + tr.length) + 2) 9 (tl ++ .op .dstar :: tr ++ r) (.bin .dstar al ar) r := by
    intro f hf
    obtain ⟨f, rfl⟩ : ∃ g, f = g + 1 := ⟨f - 1, by omega⟩
    have e1 := hl.at_level (l := 10) (by omega) (r := .op .dstar :: tr ++ r) (by simp [stopB, OpTok.level]) f (by omega)
    have e2 := hr.at_level hR (hs' _) f (by omega)
    simp only [List.cons_append] at e1
    rw [List.append_assoc, List.cons_append, pE_9]
    simp only [e1, e2]
  refine (downTo (L := 9) (l := 0) (by omega) (by omega) (by omega) base hs ?_ ?_).mono (by simp; omega)
  · intro _ h; exact headNot_append (headNot_append (hl.h2 (by omega)) h1) (by simp; omega)
  · intro _ h; exact headNot_append (headNot_append (hl.h8 (by omega)) h1) (by simp; omega)

/-! ## Lists -/

inductive Phrases : List (List Tok) → List Ast → Prop
  | nil : Phrases [] []
  | cons {t a ts as} : Phrase0 t a → Phrases ts as → Phrases (t :: ts) (a :: as)

theorem pList_ok {ts as} (h : Phrases ts as) (hne : ts ≠ []) (r : List Tok) (f : Nat)
    (hf : 14 * (joinToks ts).length + 1 ≤ f) : pList f (joinToks ts ++ .rbrk :: r) = some (as, .rbrk :: r) := by
  induction h generalizing f with
  | nil => exact absurd rfl hne
  | @cons t a ts as h hs ih =>
    cases hs with
    | nil =>
      simp only [joinToks] at hf ⊢
      obtain ⟨f, rfl⟩ : ∃ g, f = g + 1 := ⟨f - 1, by omega⟩
      have := h.2 (.rbrk :: r) rfl f (by omega)
      simp [pList, this]
    | @cons t' a' ts as h' hs =>
      simp only [joinToks] at hf ⊢
      obtain ⟨f, rfl⟩ : ∃ g, f = g + 1 := ⟨f - 1, by omega⟩
      have e1 := h.2 (.comma :: (joinToks (t' :: ts) ++ .rbrk :: r)) rfl f (by simp at hf; omega)
      have e2 := ih (by simp) f (by simp at hf; omega)
      rw [List.append_assoc, List.cons_append, pList]
      simp only [e1, e2]

theorem callList_phrase {ts as} (h : Phrases ts as) (hne : ts ≠ []) (x : Name) :
    Phrase ([.name x, .lpar, .lbrk] ++ joinToks ts ++ [.rbrk, .rpar]) 10 (.callList x as) where
  le := by omega
  pos := by simp
  parse := by
    intro r _ f hf
    obtain ⟨f, rfl⟩ : ∃ g, f = g + 1 := ⟨f - 1, by simp at hf; omega⟩
    have := pList_ok h hne (.rpar :: r) f (by simp at hf; omega)
    simp only [List.append_assoc, List.cons_append, List.nil_append]
    rw [pE]
    simp only [this]
  h2 := by intro _ r; simp
  h8 := by intro _ r; simp

/-! ## `or` without brackets -/

/-- A text `p1 or … or pk`; `a` is the parse of the whole, `g` the parse when it continues an
already parsed `acc or …`. -/
structure OrPhrase (t : List Tok) (a : Ast) : Prop where
  pos : 1 ≤ t.length
  ex : ∃ k N, 1 ≤ k ∧ 1 ≤ N ∧ N + k ≤ 14 * t.length ∧
    (∀ r, stopB 1 r = true → ∀ f, N ≤ f → pE (f + k) 0 (t ++ r) = pLoop f 0 a r) ∧
    (∀ acc, ∃ a', (∀ env, a'.eval env = (Ast.or acc a).eval env) ∧
      ∀ r, stopB 1 r = true → ∀ f, N ≤ f → pLoop (f + k) 0 acc (.op .or :: t ++ r) = pLoop f 0 a' r)

theorem Phrase.toOr {t L a} (h : Phrase t L a) (hL : 1 ≤ L) : OrPhrase t a where
  pos := h.pos
  ex := by
    have hp := h.pos
    refine ⟨1, 14 * t.length - 1, by omega, by omega, by omega, ?_, ?_⟩
    · intro r hs f hf
      rw [pE_left (by simp)]; simp [h.at_level' hL (by omega) hs f hf]
    · intro acc
      refine ⟨.or acc a, fun _ => rfl, fun r hs f hf => ?_⟩
      rw [List.cons_append, pLoop]
      simp [OpTok.level, h.at_level' hL (by omega) hs f hf, mkBin]

theorem or_assoc_eval (a b c : Ast) (env) :
    (Ast.or (Ast.or a b) c).eval env = (Ast.or a (Ast.or b c)).eval env := by
  simp only [Ast.eval]
  cases a.eval env with
  | error e => simp
  | ok x =>
    by_cases hx : truthy x = true
    · simp [hx]
    · simp [hx]

theorem or_congr_eval {a a' : Ast} (b : Ast) {env} (h : a.eval env = a'.eval env) :
    (Ast.or a b).eval env = (Ast.or a' b).eval env := by
  simp only [Ast.eval, h]

theorem OrPhrase.or {tl tr al ar} (hl : OrPhrase tl al) (hr : OrPhrase tr ar) :
    ∃ a, OrPhrase (tl ++ .op .or :: tr) a ∧ ∀ env, a.eval env = (Ast.or al ar).eval env := by
  obtain ⟨k1, N1, hk1, hN1, hb1, p1, q1⟩ := hl.ex
  obtain ⟨k2, N2, hk2, hN2, hb2, p2, q2⟩ := hr.ex
  have hp1 := hl.pos
  have hp2 := hr.pos
  obtain ⟨a, ha, hq⟩ := q2 al
  have hs1 : ∀ r, stopB 1 (.op .or :: r) = true := by intro r; simp [stopB, OpTok.level]
  refine ⟨a, ⟨by simp; omega, k1 + k2, max N1 N2, by omega, by omega, ?_, ?_, ?_⟩, ha⟩
  · simp only [List.length_append, List.length_cons]
    rcases Nat.le_total N1 N2 with h | h
    · rw [Nat.max_eq_right h]; omega
    · rw [Nat.max_eq_left h]; omega
  · intro r hs f hf
    have e1 := p1 (.op .or :: tr ++ r) (hs1 _) (f + k2) (by omega)
    have e2 := hq r hs f (by omega)
    rw [List.append_assoc, List.cons_append, show f + (k1 + k2) = f + k2 + k1 by omega]
    rw [List.cons_append] at e1 e2
    rw [e1, e2]
  · intro acc
    obtain ⟨b, hb, hqb⟩ := q1 acc
    obtain ⟨c, hc, hqc⟩ := q2 b
    refine ⟨c, fun env => ?_, fun r hs f hf => ?_⟩
    · rw [hc env, or_congr_eval ar (hb env), or_assoc_eval]
      simp only [Ast.eval] at ha ⊢
      rw [ha env]
    · have e1 := hqb (.op .or :: tr ++ r) (hs1 _) (f + k2) (by omega)
      have e2 := hqc r hs f (by omega)
      rw [show f + (k1 + k2) = f + k2 + k1 by omega]
      simp only [List.cons_append, List.append_assoc] at e1 e2 ⊢
      rw [e1, e2]

theorem OrPhrase.zero {t a} (h : OrPhrase t a) : Phrase0 t a := by
  obtain ⟨k, N, hk, hN, hb, p, _⟩ := h.ex
  refine ⟨h.pos, fun r hs f hf => ?_⟩
  have e := p r (stopB_mono (Nat.zero_le _) hs) (f - k)
  by_cases hfk : N ≤ f - k
  · have := e hfk
    rw [show f - k + k = f by omega] at this
    rw [this]
    obtain ⟨g, hg⟩ : ∃ g, f - k = g + 1 := ⟨f - k - 1, by omega⟩
    rw [hg]; exact pLoop_stop hs
  · omega

theorem parseBody_ok {t a} (h : Phrase0 t a) : parseBody t = some a := by
  have := h.2 [] rfl (14 * t.length + 14) (by omega)
  simp only [List.append_nil] at this
  simp [parseBody, this]

end Satisfy
