import Verif.SpecSyntax
import Verif.Lemmas.Syntax
import Verif.Props.Demo
import Verif.Props.ConditionProgram
/-!
# Cryptarithm texts that are no expressions: C79
-/

namespace Satisfy
open Satisfy.Props

instance (c : Char) : Decidable (OpChar c) := inferInstanceAs (Decidable (c ∈ _))
instance (c : Char) : Decidable (BinChar c) := inferInstanceAs (Decidable (c ∈ _))
instance (p q : Char) : Decidable (PairChars p q) := inferInstanceAs (Decidable (_ ∈ _))

/-! ## Tokens -/

theorem tokScan_count {ts : List Tok} {s s' : Nat × LastTok} (h : tokScan ts s = some s') : s.1 + ts.count .lpar = s'.1 + ts.count .rpar := by
  induction ts generalizing s with
  | nil => cases h; simp
  | cons t ts ih =>
    rw [tokScan] at h
    cases ht : tokStep s t with
    | none => rw [ht] at h; cases h
    | some q =>
      rw [ht] at h
      have := ih h
      cases t <;> simp only [tokStep] at ht
      case lpar => cases ht; simp at this ⊢; omega
      case rpar =>
        split at ht
        · cases ht
        · cases ht; simp at this ⊢; omega
      case op =>
        split at ht
        · cases ht; simpa using this
        · cases ht
      all_goals cases ht; simpa using this

/-- The tokens of a character. -/
theorem lexFresh_count {c : Char} {ts us : List Tok} {p : Pending} (h : lexFresh c ts = some (us, p)) :
    us.count .lpar = ts.count .lpar + [c].count '(' ∧ us.count .rpar = ts.count .rpar + [c].count ')' := by
  unfold lexFresh at h
  split at h
  · rename_i hc; cases h; subst hc; exact ⟨rfl, rfl⟩
  split at h
  · rename_i hc
    cases h
    have h1 : c ≠ '(' := by rintro rfl; revert hc; decide
    have h2 : c ≠ ')' := by rintro rfl; revert hc; decide
    simp [h1, h2]
  split at h
  · rename_i hc
    cases h
    have h1 : c ≠ '(' := by rintro rfl; revert hc; decide
    have h2 : c ≠ ')' := by rintro rfl; revert hc; decide
    simp [h1, h2]
  split at h
  · rename_i hc
    cases h
    have h1 : c ≠ '(' := by rintro rfl; revert hc; decide
    have h2 : c ≠ ')' := by rintro rfl; revert hc; decide
    simp [h1, h2]
  split at h
  · rename_i t ht
    cases h
    by_cases h1 : c = '('
    · subst h1; cases ht; simp
    by_cases h2 : c = ')'
    · subst h2; cases ht; simp
    have : t ≠ .lpar ∧ t ≠ .rpar := by
      unfold charTok at ht
      rw [if_neg h1, if_neg h2] at ht
      repeat' split at ht
      all_goals first | (cases ht; exact ⟨nofun, nofun⟩) | cases ht
    simp [h1, h2, this.1, this.2]
  · cases h

theorem flush_count {p : Pending} {ts : List Tok} (h : p.flush = some ts) : ts.count .lpar = 0 ∧ ts.count .rpar = 0 := by
  cases p with
  | start => cases h; simp
  | num n => cases h; simp
  | name s => cases h; simp
  | op c =>
    simp only [Pending.flush] at h
    repeat' split at h
    all_goals first | (cases h; simp) | cases h

theorem pairTok_op {a c : Char} {t : Tok} (h : pairTok a c = some t) : ∃ o, t = .op o ∧ o ≠ .minus ∧ o ≠ .not := by
  unfold pairTok at h
  repeat' split at h
  all_goals first | (cases h; exact ⟨_, rfl, nofun, nofun⟩) | cases h

theorem lexStep_count {p p' : Pending} {c : Char} {ts : List Tok} (h : lexStep p c = some (ts, p')) :
    ts.count .lpar = [c].count '(' ∧ ts.count .rpar = [c].count ')' := by
  cases p with
  | start => simpa [lexStep] using lexFresh_count (ts := []) h
  | num n =>
    simp only [lexStep] at h
    split at h
    · rename_i hc
      have h1 : c ≠ '(' := by rintro rfl; revert hc; decide
      have h2 : c ≠ ')' := by rintro rfl; revert hc; decide
      split at h
      · cases h
      · cases h; simp [h1, h2]
    · split at h
      · cases h
      · simpa using lexFresh_count h
  | name s =>
    simp only [lexStep] at h
    split at h
    · rename_i hc
      have h1 : c ≠ '(' := by rintro rfl; revert hc; decide
      have h2 : c ≠ ')' := by rintro rfl; revert hc; decide
      cases h; simp [h1, h2]
    · simpa using lexFresh_count h
  | op a =>
    simp only [lexStep] at h
    split at h
    · rename_i t ht
      cases h
      obtain ⟨o, rfl, -, -⟩ := pairTok_op ht
      have h1 : c ≠ '(' := by rintro rfl; simp [pairTok] at ht
      have h2 : c ≠ ')' := by rintro rfl; simp [pairTok] at ht
      simp [h1, h2]
    · split at h
      · cases h
      · rename_i us hu
        have := lexFresh_count h
        rw [(flush_count hu).1, (flush_count hu).2] at this
        simpa using this

theorem lexRun_count {x : List Char} {p p' : Pending} {ts : List Tok} (h : lexRun x p = some (ts, p')) :
    ts.count .lpar = x.count '(' ∧ ts.count .rpar = x.count ')' := by
  induction x generalizing p ts with
  | nil => cases h; simp
  | cons c x ih =>
    rw [lexRun] at h
    split at h
    · cases h
    · rename_i us q hq
      cases hr : lexRun x q with
      | none => rw [hr] at h; cases h
      | some y =>
        rw [hr] at h; cases h
        obtain ⟨h1, h2⟩ := lexStep_count hq
        obtain ⟨h3, h4⟩ := ih hr
        simp only [List.count_append, h1, h2, h3, h4]
        constructor
        · rw [← List.count_append]; rfl
        · rw [← List.count_append]; rfl

theorem lexRun_of_lexGo {x y : List Char} {p : Pending} {toks : List Tok} (h : lexGo (x ++ y) p = some toks) :
    ∃ ts p' us, lexRun x p = some (ts, p') ∧ lexGo y p' = some us ∧ toks = ts ++ us := by
  induction x generalizing p toks with
  | nil => exact ⟨[], p, toks, rfl, h, rfl⟩
  | cons c x ih =>
    rw [List.cons_append, lexGo] at h
    split at h
    · cases h
    · rename_i ts q hq
      cases hg : lexGo (x ++ y) q with
      | none => rw [hg] at h; cases h
      | some z =>
        rw [hg] at h; cases h
        obtain ⟨us, p', vs, h1, h2, rfl⟩ := ih hg
        exact ⟨ts ++ us, p', vs, by rw [lexRun, hq]; simp [h1], h2, by simp⟩

theorem lexRun_snoc {x : List Char} {c : Char} {p p' : Pending} {ts : List Tok} (h : lexRun (x ++ [c]) p = some (ts, p')) :
    ∃ us q vs, lexRun x p = some (us, q) ∧ lexStep q c = some (vs, p') ∧ ts = us ++ vs := by
  induction x generalizing p ts with
  | nil =>
    simp only [List.nil_append, lexRun] at h
    split at h
    · cases h
    · rename_i us q hq
      cases h
      exact ⟨[], p, us, rfl, hq, by simp⟩
  | cons d x ih =>
    rw [List.cons_append, lexRun] at h
    split at h
    · cases h
    · rename_i us q hq
      cases hr : lexRun (x ++ [c]) q with
      | none => rw [hr] at h; cases h
      | some y =>
        rw [hr] at h; cases h
        obtain ⟨a, b, e, h1, h2, h3⟩ := ih hr
        exact ⟨us ++ a, b, e, by rw [lexRun, hq]; simp [h1], h2, by rw [h3]; simp⟩

theorem lexFresh_append (c : Char) (ts : List Tok) : lexFresh c ts = (lexFresh c []).map (fun q => (ts ++ q.1, q.2)) := by
  unfold lexFresh
  repeat' split
  all_goals simp_all

/-- A pending operator is the last character. -/
theorem lexStep_pending {p : Pending} {c a : Char} {ts : List Tok} (h : lexStep p c = some (ts, .op a)) : a = c := by
  have fresh : ∀ {us : List Tok}, lexFresh c us = some (ts, .op a) → a = c := by
    intro us h
    unfold lexFresh at h
    repeat' split at h
    all_goals first | (cases h; rfl) | cases h
  cases p with
  | start => exact fresh h
  | num n =>
    simp only [lexStep] at h
    repeat' split at h
    all_goals first | exact fresh h | cases h
  | name s =>
    simp only [lexStep] at h
    repeat' split at h
    all_goals first | exact fresh h | cases h
  | op b =>
    simp only [lexStep] at h
    repeat' split at h
    all_goals first | exact fresh h | cases h

/-- Reading the character of an operator. -/
theorem fresh_op {c : Char} (hc : OpChar c) (ts : List Tok) :
    lexFresh c ts = some (ts, .op c) ∨ ∃ o, lexFresh c ts = some (ts ++ [.op o], .start) ∧ (BinChar c → o ≠ .minus ∧ o ≠ .not) := by
  have : c = '+' ∨ c = '-' ∨ c = '*' ∨ c = '/' ∨ c = '%' ∨ c = '&' ∨ c = '|' ∨ c = '<' ∨ c = '>' ∨ c = '=' ∨ c = '!' := by simpa [OpChar] using hc
  rcases this with rfl | rfl | rfl | rfl | rfl | rfl | rfl | rfl | rfl | rfl | rfl
  all_goals first
    | exact .inl rfl
    | exact .inr ⟨_, rfl, fun _ => by decide⟩
    | exact .inr ⟨_, rfl, fun h => absurd h (by decide)⟩

theorem BinChar.op {c : Char} (h : BinChar c) : OpChar c := by
  unfold BinChar at h; unfold OpChar
  exact List.mem_cons_of_mem _ (List.mem_cons_of_mem _ h)

/-- After an operator: it is pending, or it is the last token. -/
theorem lexStep_op {p p' : Pending} {c : Char} {ts : List Tok} (hc : OpChar c) (h : lexStep p c = some (ts, p')) :
    p' = .op c ∨ p' = .start ∧ ∃ u o, ts = u ++ [.op o] := by
  have fresh : ∀ {us : List Tok}, lexFresh c us = some (ts, p') → p' = .op c ∨ p' = .start ∧ ∃ u o, ts = u ++ [.op o] := by
    intro us h
    rcases fresh_op hc us with e | ⟨o, e, -⟩ <;> rw [e] at h <;> cases h
    · exact .inl rfl
    · exact .inr ⟨rfl, _, _, rfl⟩
  have h1 : isDig c = false ∧ (c.isAlpha || c = '_') = false := by
    have : c = '+' ∨ c = '-' ∨ c = '*' ∨ c = '/' ∨ c = '%' ∨ c = '&' ∨ c = '|' ∨ c = '<' ∨ c = '>' ∨ c = '=' ∨ c = '!' := by simpa [OpChar] using hc
    rcases this with rfl | rfl | rfl | rfl | rfl | rfl | rfl | rfl | rfl | rfl | rfl <;> decide
  cases p with
  | start => exact fresh h
  | num n =>
    simp only [lexStep, h1.1, h1.2, Bool.false_eq_true, if_false] at h
    exact fresh h
  | name s =>
    simp only [lexStep] at h
    split at h
    · rename_i hn; rw [h1.1, Bool.false_or] at hn; rw [h1.2] at hn; cases hn
    · exact fresh h
  | op a =>
    simp only [lexStep] at h
    split at h
    · rename_i t ht
      cases h
      obtain ⟨o, rfl, -, -⟩ := pairTok_op ht
      exact .inr ⟨rfl, [], o, rfl⟩
    · split at h
      · cases h
      · exact fresh h

theorem flush_op {c : Char} {ts : List Tok} (h : Pending.flush (.op c) = some ts) : ∃ o, ts = [.op o] ∧ o ≠ .minus ∧ o ≠ .not := by
  simp only [Pending.flush] at h
  repeat' split at h
  all_goals first | (cases h; exact ⟨_, rfl, nofun, nofun⟩) | cases h

theorem lexGo_blanks {b r : List Char} (hb : Blanks b) : lexGo (b ++ r) .start = lexGo r .start := by
  induction b with
  | nil => rfl
  | cons c b ih =>
    obtain rfl := hb c (by simp)
    rw [List.cons_append, lexGo]
    simp only [lexStep, lexFresh, if_true]
    rw [ih (fun d hd => hb d (by simp [hd]))]
    simp

/-- … the operator, then the rest. -/
theorem lexGo_pending {p : Char} {b r : List Char} {toks : List Tok} (hb : Blanks b) (hp : b = [] → ∀ q, r.head? = some q → pairTok p q = none)
    (h : lexGo (b ++ r) (.op p) = some toks) : ∃ o us, toks = .op o :: us ∧ lexGo r .start = some us := by
  cases b with
  | nil =>
    cases r with
    | nil =>
      obtain ⟨o, rfl, -, -⟩ := flush_op (by simpa [lexGo] using h)
      exact ⟨o, [], rfl, rfl⟩
    | cons q r =>
      rw [List.nil_append, lexGo] at h
      simp only [lexStep, hp rfl q rfl] at h
      cases hf : Pending.flush (.op p) with
      | none => rw [hf] at h; cases h
      | some ts =>
        obtain ⟨o, rfl, -, -⟩ := flush_op hf
        rw [hf] at h
        simp only at h
        rw [lexFresh_append] at h
        rw [lexGo]
        simp only [lexStep]
        cases hq : lexFresh q [] with
        | none => rw [hq] at h; cases h
        | some z =>
          rw [hq] at h
          simp only [Option.map_some] at h ⊢
          cases hg : lexGo r z.2 with
          | none => rw [hg] at h; cases h
          | some us => rw [hg] at h; cases h; exact ⟨o, _, rfl, rfl⟩
  | cons c b =>
    obtain rfl := hb c (by simp)
    rw [List.cons_append, lexGo] at h
    have : pairTok p ' ' = none := by simp [pairTok]
    simp only [lexStep, this] at h
    cases hf : Pending.flush (.op p) with
    | none => rw [hf] at h; cases h
    | some ts =>
      obtain ⟨o, rfl, -, -⟩ := flush_op hf
      rw [hf] at h
      simp only [lexFresh, if_true] at h
      rw [lexGo_blanks (fun d hd => hb d (by simp [hd]))] at h
      cases hg : lexGo r .start with
      | none => rw [hg] at h; cases h
      | some us => rw [hg] at h; cases h; exact ⟨o, us, rfl, rfl⟩

/-- A text with an operator in it. -/
theorem lex_after_op {x b r : List Char} {p : Char} {toks : List Tok} (hp : OpChar p) (hb : Blanks b)
    (hpq : b = [] → ∀ q, r.head? = some q → pairTok p q = none) (h : lexGo (x ++ p :: (b ++ r)) .start = some toks) :
    ∃ u o us, toks = u ++ .op o :: us ∧ lexGo r .start = some us := by
  rw [show x ++ p :: (b ++ r) = (x ++ [p]) ++ (b ++ r) by simp] at h
  obtain ⟨ts, p', us, h1, h2, rfl⟩ := lexRun_of_lexGo h
  obtain ⟨us', q, vs, -, h4, rfl⟩ := lexRun_snoc h1
  rcases lexStep_op hp h4 with rfl | ⟨rfl, u, o, rfl⟩
  · obtain ⟨o, ws, rfl, h5⟩ := lexGo_pending hb hpq h2
    exact ⟨us' ++ vs, o, ws, by simp, h5⟩
  · rw [lexGo_blanks hb] at h2
    exact ⟨us' ++ u, o, us, by simp, h2⟩

/-- … or an opening bracket. -/
theorem lex_after_open {x b r : List Char} {toks : List Tok} (hb : Blanks b) (h : lexGo (x ++ '(' :: (b ++ r)) .start = some toks) :
    ∃ u us, toks = u ++ .lpar :: us ∧ lexGo r .start = some us := by
  rw [show x ++ '(' :: (b ++ r) = (x ++ ['(']) ++ (b ++ r) by simp] at h
  obtain ⟨ts, p', us, h1, h2, rfl⟩ := lexRun_of_lexGo h
  obtain ⟨us', q, vs, -, h4, rfl⟩ := lexRun_snoc h1
  have key : p' = .start ∧ ∃ u, vs = u ++ [.lpar] := by
    have fresh : ∀ us, lexFresh '(' us = some (us ++ [.lpar], .start) := fun us => rfl
    cases q with
    | start => rw [lexStep, fresh] at h4; cases h4; exact ⟨rfl, [], rfl⟩
    | num n =>
      simp only [lexStep, show isDig '(' = false from rfl, show ('('.isAlpha || decide ('(' = '_')) = false from rfl, Bool.false_eq_true, if_false, fresh] at h4
      cases h4; exact ⟨rfl, _, rfl⟩
    | name s =>
      simp only [lexStep, show (isDig '(' || '('.isAlpha || decide ('(' = '_')) = false from rfl, Bool.false_eq_true, if_false, fresh] at h4
      cases h4; exact ⟨rfl, _, rfl⟩
    | op a =>
      have : pairTok a '(' = none := by simp [pairTok]
      simp only [lexStep, this] at h4
      split at h4
      · cases h4
      · rw [fresh] at h4; cases h4; exact ⟨rfl, _, rfl⟩
  obtain ⟨rfl, u, rfl⟩ := key
  rw [lexGo_blanks hb] at h2
  exact ⟨us' ++ u, us, by simp, h2⟩

theorem lex_first_bin {q : Char} {t : List Char} {toks : List Tok} (hq : BinChar q) (h : lexGo (q :: t) .start = some toks) :
    ∃ o us, toks = .op o :: us ∧ o ≠ .minus ∧ o ≠ .not := by
  rw [lexGo] at h
  simp only [lexStep] at h
  rcases fresh_op hq.op [] with e | ⟨o, e, ho⟩ <;> rw [e] at h <;> simp only at h
  · cases t with
    | nil =>
      cases hf : Pending.flush (.op q) with
      | none => rw [lexGo, hf] at h; cases h
      | some ts =>
        obtain ⟨o, rfl, ho⟩ := flush_op hf
        rw [lexGo, hf] at h; cases h
        exact ⟨o, [], rfl, ho⟩
    | cons c t =>
      rw [lexGo] at h
      simp only [lexStep] at h
      cases hp : pairTok q c with
      | some tk =>
        obtain ⟨o, rfl, ho⟩ := pairTok_op hp
        rw [hp] at h
        simp only at h
        cases hg : lexGo t .start with
        | none => rw [hg] at h; cases h
        | some us => rw [hg] at h; cases h; exact ⟨o, _, rfl, ho⟩
      | none =>
        rw [hp] at h
        simp only at h
        cases hf : Pending.flush (.op q) with
        | none => rw [hf] at h; cases h
        | some ts =>
          obtain ⟨o, rfl, ho⟩ := flush_op hf
          rw [hf] at h
          simp only at h
          rw [lexFresh_append] at h
          cases hc : lexFresh c [] with
          | none => rw [hc] at h; cases h
          | some z =>
            rw [hc] at h
            simp only [Option.map_some] at h
            cases hg : lexGo t z.2 with
            | none => rw [hg] at h; cases h
            | some us => rw [hg] at h; cases h; exact ⟨o, _, rfl, ho⟩
  · cases hg : lexGo t .start with
    | none => rw [hg] at h; cases h
    | some us => rw [hg] at h; cases h; exact ⟨o, us, rfl, ho hq⟩

theorem lex_first_close {t : List Char} {toks : List Tok} (h : lexGo (')' :: t) .start = some toks) : ∃ us, toks = .rpar :: us := by
  rw [lexGo] at h
  simp only [lexStep, show lexFresh ')' [] = some ([.rpar], .start) from rfl] at h
  cases hg : lexGo t .start with
  | none => rw [hg] at h; cases h
  | some us => rw [hg] at h; cases h; exact ⟨us, rfl⟩

/-! ## Broken texts have no tokens, or cannot be parsed -/

theorem pairTok_none {p q : Char} (h : ¬ PairChars p q) : pairTok p q = none := by
  unfold pairTok
  have key : ∀ (a b : Char), PairChars a b → ¬ (p = a ∧ q = b) := by
    rintro a b hs ⟨rfl, rfl⟩
    exact h hs
  rw [if_neg (key '*' '*' (by decide)), if_neg (key '/' '/' (by decide)), if_neg (key '=' '=' (by decide)), if_neg (key '!' '=' (by decide)),
    if_neg (key '<' '=' (by decide)), if_neg (key '>' '=' (by decide))]

theorem not_operand_bin {u us : List Tok} {t : Tok} {o : OpTok} (ho : o ≠ .minus ∧ o ≠ .not) (ht : t = .lpar ∨ ∃ o, t = .op o) :
    ¬ Operand (u ++ t :: .op o :: us) := by
  intro h
  have := h 0 .opened
  rw [tokScan_append] at this
  cases hu : tokScan u (0, .opened) with
  | none => rw [hu] at this; cases this
  | some s =>
    rw [hu] at this
    simp only [Option.bind_some, tokScan] at this
    rcases ht with rfl | ⟨o', rfl⟩
    · simp [tokStep, ho.1, ho.2] at this
    · simp only [tokStep] at this
      split at this
      · simp [ho.1, ho.2] at this
      · cases this

theorem not_operand_first {us : List Tok} {o : OpTok} (ho : o ≠ .minus ∧ o ≠ .not) : ¬ Operand (.op o :: us) := by
  intro h
  have := h 0 .opened
  simp [tokScan, tokStep, ho.1, ho.2] at this

theorem not_operand_close {u us : List Tok} {o : OpTok} : ¬ Operand (u ++ .op o :: .rpar :: us) := by
  intro h
  have := h 0 .opened
  rw [tokScan_append] at this
  cases hu : tokScan u (0, .opened) with
  | none => rw [hu] at this; cases this
  | some s =>
    rw [hu] at this
    simp only [Option.bind_some, tokScan, tokStep] at this
    split at this
    · simp at this
    · cases this

theorem not_operand_last {u : List Tok} {o : OpTok} : ¬ Operand (u ++ [.op o]) := by
  intro h
  have := h 0 .opened
  rw [tokScan_append] at this
  cases hu : tokScan u (0, .opened) with
  | none => rw [hu] at this; cases this
  | some s =>
    rw [hu] at this
    simp only [Option.bind_some, tokScan, tokStep] at this
    split at this
    · simp at this
    · cases this

theorem broken_tokens {x : List Char} {toks : List Tok} (h : Broken x) (hl : lexGo x .start = some toks) : ¬ Operand toks := by
  intro ho
  cases h with
  | blank hb =>
    have := lexGo_blanks (r := []) hb
    rw [List.append_nil, hl] at this
    cases this
    have := ho 0 .opened
    cases this
  | @equals s t hs ht =>
    obtain ⟨ts, p', us, h1, h2, rfl⟩ := lexRun_of_lexGo hl
    rw [lexGo] at h2
    have hstep : ∀ vs p'', lexStep p' '=' = some (vs, p'') → p'' = .op '=' := by
      intro vs p'' hv
      rcases lexStep_op (by decide) hv with h | ⟨rfl, u, o, hu⟩
      · exact h
      · exfalso
        cases p' with
        | start => simp [lexStep, lexFresh, isDig, isOpStart] at hv
        | num n => simp [lexStep, lexFresh, isDig, isOpStart] at hv
        | name n => simp [lexStep, lexFresh, isDig, isOpStart] at hv
        | op a =>
          have ha : s.getLast? = some a := by
            rcases List.eq_nil_or_concat s with rfl | ⟨s', c, rfl⟩
            · cases h1
            · obtain ⟨_, _, _, _, h4, _⟩ := lexRun_snoc (by simpa using h1)
              rw [lexStep_pending h4]; simp
          have hna := hs a ha
          have : pairTok a '=' = none := by
            have h2 : a ≠ '=' := fun e => hna (by rw [e]; decide)
            have h3 : a ≠ '!' := fun e => hna (by rw [e]; decide)
            have h4 : a ≠ '<' := fun e => hna (by rw [e]; decide)
            have h5 : a ≠ '>' := fun e => hna (by rw [e]; decide)
            simp [pairTok, h2, h3, h4, h5]
          simp only [lexStep, this] at hv
          split at hv
          · cases hv
          · simp [lexFresh, isDig, isOpStart] at hv
    cases hst : lexStep p' '=' with
    | none => rw [hst] at h2; cases h2
    | some z =>
      obtain ⟨vs, p''⟩ := z
      obtain rfl := hstep vs p'' hst
      rw [hst] at h2
      simp only at h2
      cases t with
      | nil => simp [lexGo, Pending.flush] at h2
      | cons c t =>
        have hc : c ≠ '=' := fun e => ht (by rw [e]; rfl)
        simp [lexGo, lexStep, pairTok, hc, Pending.flush] at h2
  | @closing s t hs =>
    rw [show s ++ ')' :: t = (s ++ [')']) ++ t by simp] at hl
    obtain ⟨ts, p', us, h1, h2, rfl⟩ := lexRun_of_lexGo hl
    obtain ⟨c1, c2⟩ := lexRun_count h1
    have := ho 0 .opened
    rw [tokScan_append] at this
    cases hu : tokScan ts (0, .opened) with
    | none => rw [hu] at this; cases this
    | some q =>
      have := tokScan_count hu
      rw [c1, c2] at this
      simp at this
      omega
  | unclosed hs =>
    obtain ⟨ts, p', us, h1, h2, rfl⟩ := lexRun_of_lexGo (y := []) (by rw [List.append_nil]; exact hl)
    obtain ⟨c1, c2⟩ := lexRun_count h1
    obtain ⟨d1, d2⟩ := flush_count (by simpa [lexGo] using h2)
    have := tokScan_count (ho 0 .opened)
    simp only [List.count_append, c1, c2, d1, d2] at this
    omega
  | first hb hq =>
    rw [lexGo_blanks hb] at hl
    obtain ⟨o, us, rfl, h1⟩ := lex_first_bin hq hl
    exact not_operand_first h1 ho
  | @last s q b hq hb =>
    obtain ⟨u, o, us, rfl, h1⟩ := lex_after_op (r := []) hq hb (by simp) (by simpa using hl)
    cases h1
    exact not_operand_last ho
  | twice hp hb hq hpq =>
    obtain ⟨u, o, us, rfl, h1⟩ := lex_after_op hp hb (by rintro rfl c hc; cases hc; exact pairTok_none (hpq rfl)) hl
    obtain ⟨o', vs, rfl, h2⟩ := lex_first_bin hq h1
    exact not_operand_bin h2 (.inr ⟨_, rfl⟩) ho
  | after hb hq _ =>
    obtain ⟨u, us, rfl, h1⟩ := lex_after_open hb hl
    obtain ⟨o', vs, rfl, h2⟩ := lex_first_bin hq h1
    exact not_operand_bin h2 (.inl rfl) ho
  | before hp hb =>
    obtain ⟨u, o, us, rfl, h1⟩ := lex_after_op hp hb (by intro _ c hc; cases hc; simp [pairTok]) hl
    obtain ⟨vs, rfl⟩ := lex_first_close h1
    exact not_operand_close ho

theorem broken_eval {x : List Char} (h : Broken x) (env : List (Name × Expr)) : pyEvalArg env x = .error .syntaxError := by
  unfold pyEvalArg
  cases hl : lexGo x .start with
  | none => rfl
  | some toks =>
    simp only
    cases hp : parseBody toks with
    | none => rfl
    | some a => exact absurd (parseBody_sound hp) (broken_tokens h hl)

/-! ## The words replaced -/

theorem expand_split {p : Char} (hp : isWordChar p = false) (s r run : List Char) : expandGo (s ++ p :: r) run = expandGo s run ++ p :: expandGo r [] := by
  induction s generalizing run with
  | nil => simp [expandGo, hp]
  | cons c s ih =>
    rw [List.cons_append, expandGo, expandGo]
    split
    · exact ih _
    · rw [ih]; simp

theorem expand_blanks {b : List Char} (hb : Blanks b) (r : List Char) : expandGo (b ++ r) [] = b ++ expandGo r [] := by
  induction b with
  | nil => rfl
  | cons c b ih =>
    obtain rfl := hb c (by simp)
    rw [List.cons_append, expandGo, if_neg (by decide), ih (fun d hd => hb d (by simp [hd]))]
    simp [flushWord]

theorem flush_ends (run : List Char) : (∀ c, (flushWord run).getLast? = some c → c = ')') ∧ (∀ c, (flushWord run).head? = some c → c = '(') := by
  unfold flushWord
  split
  · exact ⟨nofun, nofun⟩
  · refine ⟨fun c hc => ?_, fun c hc => ?_⟩
    · rw [wordText, show ")".toList = [')'] from rfl, List.getLast?_append] at hc
      cases hc; rfl
    · rw [wordText] at hc
      cases hc; rfl

theorem expand_last (s run : List Char) : ∀ c, (expandGo s run).getLast? = some c → c = ')' ∨ s.getLast? = some c := by
  induction s generalizing run with
  | nil => intro c hc; exact .inl ((flush_ends run).1 c hc)
  | cons d s ih =>
    intro c hc
    rw [expandGo] at hc
    split at hc
    · rcases ih _ c hc with h | h
      · exact .inl h
      · exact .inr (by rw [List.getLast?_cons, h]; rfl)
    · rw [List.getLast?_append, List.getLast?_cons] at hc
      cases hl : (expandGo s []).getLast? with
      | none =>
        rw [hl] at hc
        cases hc
        have : s = [] := by
          cases s with
          | nil => rfl
          | cons e s =>
            exfalso
            rw [List.getLast?_eq_none_iff, expandGo] at hl
            split at hl
            · have : ∀ (s run : List Char), run ≠ [] → expandGo s run ≠ [] := by
                intro s
                induction s with
                | nil => intro run hr; simp [expandGo, flushWord, hr, wordText]
                | cons c s ih =>
                  intro run hr
                  rw [expandGo]
                  split
                  · exact ih _ (by simp)
                  · simp
              exact this _ _ (by simp) hl
            · simp at hl
        subst this
        exact .inr rfl
      | some e =>
        rw [hl] at hc
        cases hc
        rcases ih [] _ hl with h | h
        · exact .inl h
        · exact .inr (by rw [List.getLast?_cons, h])

theorem expand_head (t : List Char) : ∀ c, (expandGo t []).head? = some c → c = '(' ∨ t.head? = some c := by
  have gen : ∀ (t run : List Char), run ≠ [] → (expandGo t run).head? = some '(' := by
    intro t
    induction t with
    | nil => intro run hr; simp [expandGo, flushWord, hr, wordText]
    | cons c t ih =>
      intro run hr
      rw [expandGo]
      split
      · exact ih _ (by simp)
      · simp [flushWord, hr, wordText]
  cases t with
  | nil => intro c hc; cases hc
  | cons d t =>
    intro c hc
    rw [expandGo] at hc
    split at hc
    · rw [gen _ _ (by simp)] at hc; cases hc; exact .inl rfl
    · cases hc; exact .inr rfl

/-- The replacement of a word has as many opening as closing brackets. -/
theorem word_count {w : List Char} (hw : ∀ c ∈ w, isWordChar c = true) : (wordText w).count '(' = (wordText w).count ')' := by
  have hl := lex_word hw []
  rw [List.append_nil] at hl
  obtain ⟨ts, p', us, h1, h2, h3⟩ := lexRun_of_lexGo (x := wordText w) (y := []) (by rw [List.append_nil]; exact hl)
  obtain ⟨c1, c2⟩ := lexRun_count h1
  obtain ⟨d1, d2⟩ := flush_count (by simpa [lexGo] using h2)
  have e1 : (wordToks w).count .lpar = (wordText w).count '(' := by
    have : wordToks w = ts ++ us := by simpa using h3
    rw [this, List.count_append, c1, d1]; rfl
  have e2 : (wordToks w).count .rpar = (wordText w).count ')' := by
    have : wordToks w = ts ++ us := by simpa using h3
    rw [this, List.count_append, c2, d2]; rfl
  rw [← e1, ← e2]
  have gen : ∀ D : List (Char × List Nat), (D.flatMap (fun t => .op .plus :: termToks t)).count Tok.lpar =
      (D.flatMap (fun t => .op .plus :: termToks t)).count Tok.rpar := by
    intro D
    induction D with
    | nil => rfl
    | cons t D ih =>
      have : (termToks t).count .lpar = (termToks t).count .rpar := by unfold termToks; split <;> simp
      simp [List.count_append, this, ih]
  have := gen (wordParts w).ldict
  simp [wordToks, List.count_append, this]

theorem expand_count (s run : List Char) (hr : ∀ c ∈ run, isWordChar c = true) :
    (expandGo s run).count '(' + s.count ')' = (expandGo s run).count ')' + s.count '(' := by
  have hf : ∀ run : List Char, (∀ c ∈ run, isWordChar c = true) → (flushWord run).count '(' = (flushWord run).count ')' := by
    intro run hr
    unfold flushWord
    split
    · rfl
    · exact word_count hr
  induction s generalizing run with
  | nil => simpa [expandGo] using hf run hr
  | cons c s ih =>
    rw [expandGo]
    split
    · rename_i hc
      have h1 : c ≠ '(' := by rintro rfl; revert hc; decide
      have h2 : c ≠ ')' := by rintro rfl; revert hc; decide
      have := ih (run ++ [c]) (by intro d hd; rcases List.mem_append.1 hd with h | h; exacts [hr d h, by rw [List.mem_singleton.1 h]; exact hc])
      simpa [List.count_cons, h1, h2] using this
    · have := ih [] (by simp)
      have h3 := hf run hr
      simp only [List.count_append, List.count_cons, h3]
      split <;> split <;> omega

theorem OpChar.noWord {c : Char} (h : OpChar c) : isWordChar c = false := by
  have : c = '+' ∨ c = '-' ∨ c = '*' ∨ c = '/' ∨ c = '%' ∨ c = '&' ∨ c = '|' ∨ c = '<' ∨ c = '>' ∨ c = '=' ∨ c = '!' := by simpa [OpChar] using h
  rcases this with rfl | rfl | rfl | rfl | rfl | rfl | rfl | rfl | rfl | rfl | rfl <;> decide

theorem broken_expand {U : List Char} (h : Broken U) : Broken (expandGo U []) := by
  cases h with
  | blank hb =>
    have := expand_blanks hb []
    rw [List.append_nil] at this
    rw [this]
    exact .blank (by simpa [expandGo, flushWord] using hb)
  | @equals s t hs ht =>
    rw [expand_split (by decide)]
    refine .equals (fun c hc => ?_) (fun hc => ?_)
    · rcases expand_last s [] c hc with rfl | h
      · decide
      · exact hs c h
    · rcases expand_head t _ hc with h | h
      · cases h
      · exact ht h
  | @closing s t hs =>
    rw [expand_split (by decide)]
    have := expand_count s [] (by simp)
    exact .closing (by omega)
  | unclosed hs =>
    have := expand_count U [] (by simp)
    exact .unclosed (by omega)
  | first hb hq => rw [expand_blanks hb, ← List.nil_append (_ :: _), expand_split hq.op.noWord]; exact .first hb hq
  | @last s q b hq hb =>
    have := expand_blanks hb []
    rw [List.append_nil] at this
    rw [expand_split hq.noWord, this]
    exact .last hq (by simpa [expandGo, flushWord] using hb)
  | @twice s p b q t hp hb hq hpq =>
    rw [expand_split hp.noWord, expand_blanks hb, ← List.nil_append (q :: t), expand_split hq.op.noWord]
    exact .twice hp hb hq hpq
  | @after s b q t hb hq hne =>
    rw [expand_split (by decide), expand_blanks hb, ← List.nil_append (q :: t), expand_split hq.op.noWord]
    exact .after hb hq hne
  | @before s p b t hp hb =>
    rw [expand_split hp.noWord, expand_blanks hb, ← List.nil_append (')' :: t), expand_split (by decide)]
    exact .before hp hb

/-! ## Capitals -/

theorem text_upper {c : Char} (h : TextChar c) : c.toUpper = c ∧ isWordChar c = false ∨ isWordChar c.toUpper = true ∧ IsAlnum c := by
  rcases h with h | h
  · exact .inr ⟨cap_or h, h⟩
  · left
    have : ∀ c ∈ " ()+-*/%&|<>=!".toList, c.toUpper = c ∧ isWordChar c = false := by decide
    exact this c h

theorem text_upper_eq {c d : Char} (h : TextChar c) (hd : d ∈ " ()+-*/%&|<>=!".toList) : c.toUpper = d ↔ c = d := by
  have key : ∀ c ∈ " ()+-*/%&|<>=!".toList, c.toUpper = c ∧ isWordChar c = false := by decide
  constructor
  · rintro rfl
    rcases text_upper h with ⟨e, _⟩ | ⟨e, _⟩
    · exact e.symm
    · rw [(key _ hd).2] at e; cases e
  · rintro rfl; exact (key _ hd).1

theorem upper_count {s : List Char} (h : ∀ c ∈ s, TextChar c) {d : Char} (hd : d ∈ " ()+-*/%&|<>=!".toList) :
    (s.map Char.toUpper).count d = s.count d := by
  induction s with
  | nil => rfl
  | cons c s ih =>
    rw [List.map_cons, List.count_cons, List.count_cons, ih (fun x hx => h x (by simp [hx]))]
    simp only [beq_iff_eq, text_upper_eq (h c (by simp)) hd]

theorem upper_blanks {b : List Char} (hb : Blanks b) : b.map Char.toUpper = b := by
  induction b with
  | nil => rfl
  | cons c b ih =>
    obtain rfl := hb c (by simp)
    rw [List.map_cons, ih (fun d hd => hb d (by simp [hd]))]
    rfl

theorem upper_op {c : Char} (h : OpChar c) : c.toUpper = c := by
  have key : ∀ c ∈ "+-*/%&|<>=!".toList, c.toUpper = c := by decide
  exact key c h

theorem broken_upper {s : List Char} (h : Broken s) (ht : ∀ c ∈ s, TextChar c) : Broken (s.map Char.toUpper) := by
  cases h with
  | blank hb => rw [upper_blanks hb]; exact .blank hb
  | @equals s t hs h2 =>
    rw [List.map_append, List.map_cons, show '='.toUpper = '=' from rfl]
    refine .equals (fun c hc => ?_) (fun hc => ?_)
    · rw [List.getLast?_map, Option.map_eq_some_iff] at hc
      obtain ⟨d, hd, rfl⟩ := hc
      have hdt := ht d (List.mem_append_left _ (List.mem_of_getLast? hd))
      intro hm
      have hsub : ∀ c ∈ "=!<>".toList, c ∈ " ()+-*/%&|<>=!".toList := by decide
      have := (text_upper_eq hdt (hsub _ hm)).1 rfl
      exact hs d hd (by rw [this]; exact hm)
    · rw [List.head?_map, Option.map_eq_some_iff] at hc
      obtain ⟨d, hd, he⟩ := hc
      have hdt := ht d (List.mem_append_right _ (List.mem_cons_of_mem _ (List.mem_of_mem_head? hd)))
      rw [text_upper_eq hdt (by decide)] at he
      exact h2 (by rw [hd, he])
  | @closing s t hs =>
    rw [List.map_append, List.map_cons, show ')'.toUpper = ')' from rfl]
    have h3 : ∀ c ∈ s, TextChar c := fun c hc => ht c (List.mem_append_left _ hc)
    exact .closing (by rw [upper_count h3 (by decide), upper_count h3 (by decide)]; exact hs)
  | unclosed hs => exact .unclosed (by rw [upper_count ht (by decide), upper_count ht (by decide)]; exact hs)
  | first hb hq => rw [List.map_append, List.map_cons, upper_blanks hb, upper_op hq.op]; exact .first hb hq
  | last hq hb => rw [List.map_append, List.map_cons, upper_blanks hb, upper_op hq]; exact .last hq hb
  | twice hp hb hq hpq =>
    rw [List.map_append, List.map_cons, List.map_append, List.map_cons, upper_blanks hb, upper_op hp, upper_op hq.op]
    exact .twice hp hb hq hpq
  | after hb hq hne =>
    rw [List.map_append, List.map_cons, List.map_append, List.map_cons, upper_blanks hb, upper_op hq.op]
    exact .after hb hq hne
  | before hp hb =>
    rw [List.map_append, List.map_cons, List.map_append, List.map_cons, upper_blanks hb, upper_op hp]
    exact .before hp hb

theorem wordsOf_word (s run : List Char) (hr : ∀ c ∈ run, isWordChar c = true) : ∀ w ∈ wordsOf s run, ∀ c ∈ w, isWordChar c = true := by
  induction s generalizing run with
  | nil =>
    intro w hw
    rw [wordsOf] at hw
    split at hw
    · cases hw
    · rw [List.mem_singleton.1 hw]; exact hr
  | cons c s ih =>
    rw [wordsOf]
    split
    · rename_i hc
      exact ih _ (by intro d hd; rcases List.mem_append.1 hd with h | h; exacts [hr d h, by rw [List.mem_singleton.1 h]; exact hc])
    · intro w hw
      rcases List.mem_append.1 hw with h | h
      · split at h
        · cases h
        · rw [List.mem_singleton.1 h]; exact hr
      · exact ih [] (by simp) w h

end Satisfy

namespace Satisfy.Props
open Satisfy

/-- If `eval` raises, so does the constructor. -/
theorem crypt_raises (h : Heap) (ord : List Char → List Char) (ho : ∀ l, (ord l).Perm l) {source : List Char} {e : Err}
    (heval : ∀ env, pyEvalArg env (expandGo (source.map Char.toUpper) []) = .error e) (avoid : Bool) :
    ∃ w, cryptBuild ord source avoid ⟨.empty, h⟩ = (w, .error e) := by
  obtain ⟨off, hst⟩ := cryptWords_ok (source.map Char.toUpper) (source.map Char.toUpper)
    [] [] [] (cryptInit (source.map Char.toUpper) avoid) (by simp) (by cases avoid <;> rfl) (by cases avoid <;> rfl)
  rw [show (cryptInit (source.map Char.toUpper) avoid).letters = [] by cases avoid <;> rfl,
    show (cryptInit (source.map Char.toUpper) avoid).nonZero = [] by cases avoid <;> rfl] at hst
  have halnum := wordsOf_word (source.map Char.toUpper) [] (by simp)
  generalize wordsOf (source.map Char.toUpper) [] = ws at hst halnum
  simp only [if_true, List.append_nil, List.length_nil, List.nil_append] at hst
  obtain ⟨hn, hmem⟩ := letters_spec ws []
  have hperm := ho (ws.foldl (fun s w => wordLetters w s) [])
  generalize hletters : ord (ws.foldl (fun s w => wordLetters w s) []) = letters at hperm
  have hnd : letters.Nodup := hperm.nodup_iff.2 (hn List.nodup_nil)
  generalize ws.foldl nonZeroAdd [] = nz at hst
  have hcap : ∀ c ∈ letters, isCap c = true := by
    intro c hc
    rw [hperm.mem_iff, hmem] at hc
    obtain ⟨w, hw, hcw, hd⟩ := hc.resolve_left (by simp)
    have := halnum w hw c hcw
    simpa [isWordChar, hd] using this
  have hnames : (letters.map letterName).Nodup := List.Nodup.map (fun _ _ h => letterName_inj h) hnd
  obtain ⟨w1, e1, b1⟩ := (BuiltC.empty h).addTabs (is := []) (nm := letterName) (dom := letterDom nz) letters
    (fun c _ => by unfold letterDom; split <;> exact pyRange_nodup _ _) (fun c hc => (cap_facts (hcap c hc)).2.2.2.1)
    (by simpa using hnames)
  have e1' : Api.each (fun c => addIntVariable (if c ∈ nz then pyRange 1 10 else pyRange 0 10) (some (letterName c))) letters ⟨.empty, h⟩ =
    (w1, .ok (letters.map (fun c => Expr.var (letterName c)))) := e1
  exact ⟨w1, by simp only [cryptBuild, Api.bind_apply, Api.lift, hst, hletters, e1', heval]⟩

/-- C79 — Cryptarithms: a text that is no expression is rejected with SyntaxError. -/
theorem C79_rejected (h : Heap) (ord : List Char → List Char) (ho : ∀ l, (ord l).Perm l) (source : List Char) (ht : ∀ c ∈ source, TextChar c)
    (hb : Broken source) (avoid : Bool) :
    ∃ w, cryptBuild ord source avoid ⟨.empty, h⟩ = (w, .error .syntaxError) :=
  crypt_raises h ord ho (broken_eval (broken_expand (broken_upper hb ht))) avoid

/-- … and so the program ends with that exception, after it has printed the source. -/
theorem C79_program (m : Machine) (ho : ∀ l, (m.ord l).Perm l) {pre post : List Piece}
    {before after : List (List Char)} (hw : Written pre before) (hw' : Written post after) (hb : ∀ p ∈ pre ++ post, p.Belongs .cryptarithm)
    (hp : ∀ p ∈ pre ++ post, ∀ t ∈ p.texts, PlainArg t) (hm : ∀ p ∈ pre ++ post, ∃ v, Means m.outside p v) {source : List Char} (hplain : PlainArg source)
    (hlast : ∀ p, pre.getLast? = some p → ¬ p.Bare) (ht : ∀ c ∈ source, TextChar c) (hbr : Broken source) (n : Nat) :
    program m ("cryptarithm".toList :: before ++ source :: after) n = .raised .syntaxError := by
  obtain ⟨kw, hcall, e1, _⟩ := source_call (m := m) hw hw' hb hp hm hplain hlast
  obtain ⟨w, h1⟩ := C79_rejected m.heap m.ord ho source ht hbr (decide (kwarg kw .avoidLeadingZeros = .bool true))
  unfold program
  rw [show mainCall m.outside ("cryptarithm".toList :: before ++ source :: after) = .call .cryptarithm kw from hcall]
  simp only [e1, cryptarithmDemo, h1]

/-- The conditions of C78 have none of these mistakes. -/
theorem C79_conditions (source : List Char) (ht : ∀ c ∈ source, TextChar c) (f : CForm) (hsrc : CCond 4 source f) : ¬ Broken source := by
  intro hb
  obtain ⟨w, h1⟩ := C79_rejected exMachine.heap id (fun _ => .refl _) source ht hb true
  by_cases hk : f.kind = .number
  · obtain ⟨w', h2⟩ := C78_type_error exMachine.heap id (fun _ => .refl _) source f hsrc hk true
    rw [h1] at h2
    cases h2
  · obtain ⟨w', letters, nz, h2, -⟩ := cond_built exMachine.heap id (fun _ => .refl _) hsrc (k := False) (fun x => x.elim) hk true
    rw [h1] at h2
    cases h2

/-- `SEND+MORE=MONEY`: one `=` is missing. -/
example (h : Heap) (avoid : Bool) : ∃ w, cryptBuild id "SEND+MORE=MONEY".toList avoid ⟨.empty, h⟩ = (w, .error .syntaxError) :=
  C79_rejected h id (fun _ => .refl _) _ (by unfold TextChar IsAlnum; decide +kernel)
    (.equals (s := "SEND+MORE".toList) (t := "MONEY".toList) (by intro c hc; cases hc; decide) (by decide)) avoid

/-- `(A+B==C`: the bracket is not closed. -/
example (h : Heap) (avoid : Bool) : ∃ w, cryptBuild id "(A+B==C".toList avoid ⟨.empty, h⟩ = (w, .error .syntaxError) :=
  C79_rejected h id (fun _ => .refl _) _ (by unfold TextChar IsAlnum; decide +kernel) (.unclosed (by decide)) avoid

/-- `a+ *b==c`: two operators. -/
example (h : Heap) (avoid : Bool) : ∃ w, cryptBuild id "a+ *b==c".toList avoid ⟨.empty, h⟩ = (w, .error .syntaxError) :=
  C79_rejected h id (fun _ => .refl _) _ (by unfold TextChar IsAlnum; decide +kernel)
    (.twice (s := "a".toList) (p := '+') (b := [' ']) (q := '*') (t := "b==c".toList) (by decide) (by unfold Blanks; decide) (by decide) nofun) avoid

/-- `A)+(B==C`: closed before it is opened. -/
example (h : Heap) (avoid : Bool) : ∃ w, cryptBuild id "A)+(B==C".toList avoid ⟨.empty, h⟩ = (w, .error .syntaxError) :=
  C79_rejected h id (fun _ => .refl _) _ (by unfold TextChar IsAlnum; decide +kernel) (.closing (s := ['A']) (t := "+(B==C".toList) (by decide)) avoid

/-- `satisfy cryptarithm SEND+MORE=MONEY` -/
example (n : Nat) : program exMachine ["cryptarithm".toList, "SEND+MORE=MONEY".toList] n = .raised .syntaxError :=
  C79_program exMachine (fun _ => .refl _) (pre := []) (post := []) .nil .nil (by simp) (by simp) (by simp)
    (by unfold PlainArg; decide) (by simp) (by unfold TextChar IsAlnum; decide +kernel)
    (.equals (s := "SEND+MORE".toList) (t := "MONEY".toList) (by intro c hc; cases hc; decide) (by decide)) n

end Satisfy.Props
