import Verif.Lemmas.Solid
import Verif.Lemmas.CryptText
import Verif.Lemmas.ParseChain
import Verif.Lemmas.Arith
/-! Cryptarithms: the expression that `eval` builds. -/

namespace Satisfy
open Props

/-! ## The value of a word -/

section
variable (d : Char → Int)

theorem wordVal_append (u v : List Char) : wordVal d (u ++ v) = wordVal d u * 10 ^ v.length + wordVal d v := by
  have gen : ∀ (v : List Char) (n : Int), v.foldl (fun n c => 10 * n + charVal d c) n = n * 10 ^ v.length + wordVal d v := by
    intro v
    induction v with
    | nil => intro n; simp [wordVal]
    | cons c v ih =>
      intro n
      rw [wordVal, List.foldl_cons, List.foldl_cons, ih, ih, List.length_cons, Int.pow_succ]
      ring
  rw [wordVal, List.foldl_append, gen]; rfl

theorem digitsInt_val {part : List Char} (h : ∀ c ∈ part, isDig c = true) : (digitsInt part : Int) = wordVal d part := by
  have gen : ∀ (part : List Char), (∀ c ∈ part, isDig c = true) → ∀ n : Nat,
      ((part.foldl (fun n c => 10 * n + (c.toNat - '0'.toNat)) n : Nat) : Int) = part.foldl (fun n c => 10 * n + charVal d c) (n : Int) := by
    intro part
    induction part with
    | nil => intro _ n; rfl
    | cons c part ih =>
      intro h n
      have hc := (isDig_iff c).1 (h c (by simp))
      have h1 : '0'.toNat ≤ c.toNat := hc.1
      have h0 : '0'.toNat = 48 := rfl
      rw [List.foldl_cons, List.foldl_cons, ih (fun x hx => h x (by simp [hx])), charVal, if_pos hc]
      congr 1
      rw [h0] at h1 ⊢
      omega
  exact gen part h 0

/-- The sum of the terms. -/
def ldictSum (D : List (Char × List Nat)) : Int := (D.map (fun t => d t.1 * (t.2.sum : Nat))).sum

theorem ldictAppend_sum (D : List (Char × List Nat)) (l : Char) (x : Nat) : ldictSum d (ldictAppend D l x) = ldictSum d D + d l * x := by
  induction D with
  | nil => simp [ldictAppend, ldictSum]
  | cons t D ih =>
    rw [ldictAppend]
    split
    · rename_i h
      simp only [ldictSum, List.map_cons, List.sum_cons, List.sum_append, List.sum_nil, ← h]
      push_cast
      ring
    · simp only [ldictSum, List.map_cons, List.sum_cons] at ih ⊢
      rw [ih]; ring

theorem ldictAppend_mem {D : List (Char × List Nat)} {l : Char} {x : Nat} {t : Char × List Nat} (h : t ∈ ldictAppend D l x) : t.1 = l ∨ ∃ t' ∈ D, t.1 = t'.1 := by
  induction D with
  | nil => simp [ldictAppend] at h; exact .inl (by rw [h])
  | cons t' D ih =>
    rw [ldictAppend] at h
    split at h
    · rename_i hk
      rcases List.mem_cons.1 h with rfl | h
      · exact .inl hk
      · exact .inr ⟨t, by simp [h], rfl⟩
    · rcases List.mem_cons.1 h with rfl | h
      · exact .inr ⟨_, by simp, rfl⟩
      · rcases ih h with h | ⟨t'', h1, h2⟩
        · exact .inl h
        · exact .inr ⟨t'', by simp [h1], h2⟩

theorem ldictPart_ok (p10 : Nat) (ls : List Char) (hl : ∀ l ∈ ls, isDig l = false) (c : Nat) (D : List (Char × List Nat)) :
    ldictSum d (ldictPart p10 c ls D) = ldictSum d D + p10 * 10 ^ c * wordVal d ls.reverse ∧
    ∀ t ∈ ldictPart p10 c ls D, t.1 ∈ ls ∨ ∃ t' ∈ D, t.1 = t'.1 := by
  induction ls generalizing c D with
  | nil => simp only [ldictPart, List.reverse_nil, wordVal, List.foldl_nil]; exact ⟨by ring, fun t ht => .inr ⟨t, ht, rfl⟩⟩
  | cons l ls ih =>
    obtain ⟨h1, h2⟩ := ih (fun x hx => hl x (by simp [hx])) (c + 1) (ldictAppend D l (p10 * 10 ^ c))
    rw [ldictPart]
    refine ⟨?_, fun t ht => ?_⟩
    · have hd : charVal d l = d l := by
        have := hl l (by simp)
        rw [charVal, if_neg]; intro h; rw [(isDig_iff l).2 h] at this; cases this
      have hw : wordVal d [l] = d l := by simp [wordVal, hd]
      rw [h1, ldictAppend_sum, List.reverse_cons, wordVal_append, hw]
      push_cast
      simp only [List.length_singleton]
      ring
    · rcases h2 t ht with h | ⟨t', h3, h4⟩
      · exact .inl (by simp [h])
      · rcases ldictAppend_mem h3 with h | ⟨t'', h5, h6⟩
        · exact .inl (by simp [h4, h])
        · exact .inr ⟨t'', h5, h4.trans h6⟩

theorem groupDigits_ok (w : List Char) : (groupDigits w).flatMap Prod.snd = w ∧ ∀ p ∈ groupDigits w, ∀ c ∈ p.2, isDig c = p.1 := by
  induction w with
  | nil => simp [groupDigits]
  | cons c w ih =>
    obtain ⟨h1, h2⟩ := ih
    rw [groupDigits]
    split
    · rename_i b p ps he
      rw [he] at h1 h2
      split
      · rename_i hb
        refine ⟨by rw [← h1]; simp, fun q hq => ?_⟩
        rcases List.mem_cons.1 hq with rfl | hq
        · intro x hx
          rcases List.mem_cons.1 hx with rfl | hx
          · exact hb
          · exact h2 (b, p) (by simp) x hx
        · exact h2 q (by simp [hq])
      · refine ⟨by rw [← h1]; simp, fun q hq => ?_⟩
        rcases List.mem_cons.1 hq with rfl | hq
        · simp
        · exact h2 q hq
    · rename_i he
      rw [he] at h1
      exact ⟨by rw [← h1]; simp, by simp⟩

/-- The number of a word: the digits and the terms of the letters. -/
theorem wordParts_ok (w : List Char) : ((wordParts w).num : Int) + ldictSum d (wordParts w).ldict = wordVal d w ∧
    ∀ t ∈ (wordParts w).ldict, t.1 ∈ w ∧ isDig t.1 = false := by
  have gen : ∀ ps : List (Bool × List Char), (∀ p ∈ ps, ∀ c ∈ p.2, isDig c = p.1) →
      (ps.reverse.foldl wordPart ⟨1, 0, []⟩).p10 = 10 ^ (ps.flatMap Prod.snd).length ∧
      ((ps.reverse.foldl wordPart ⟨1, 0, []⟩).num : Int) + ldictSum d (ps.reverse.foldl wordPart ⟨1, 0, []⟩).ldict = wordVal d (ps.flatMap Prod.snd) ∧
      ∀ t ∈ (ps.reverse.foldl wordPart ⟨1, 0, []⟩).ldict, t.1 ∈ ps.flatMap Prod.snd ∧ isDig t.1 = false := by
    intro ps
    induction ps with
    | nil => intro _; simp [ldictSum, wordVal]
    | cons p ps ih =>
      intro h
      obtain ⟨h1, h2, h3⟩ := ih (fun q hq => h q (by simp [hq]))
      rw [List.reverse_cons, List.foldl_append, List.foldl_cons, List.foldl_nil]
      generalize ps.reverse.foldl wordPart ⟨1, 0, []⟩ = st at h1 h2 h3 ⊢
      have hp := h p (by simp)
      unfold wordPart
      split
      · rename_i hb
        rw [hb] at hp
        refine ⟨by simp only [List.flatMap_cons, List.length_append, h1, Nat.pow_add]; ring, ?_, fun t ht => ?_⟩
        · rw [List.flatMap_cons, wordVal_append, ← h2, ← digitsInt_val d hp]
          push_cast [h1]
          ring
        · obtain ⟨h4, h5⟩ := h3 t ht
          rw [List.flatMap_cons]
          exact ⟨by simp only [List.mem_append]; exact .inr h4, h5⟩
      · rename_i hb
        rw [Bool.not_eq_true] at hb
        rw [hb] at hp
        obtain ⟨h6, h7⟩ := ldictPart_ok d st.p10 p.2.reverse (fun l hl => hp l (by simpa using hl)) 0 st.ldict
        refine ⟨by simp only [List.flatMap_cons, List.length_append, h1, Nat.pow_add]; ring, ?_, fun t ht => ?_⟩
        · rw [List.flatMap_cons, wordVal_append, ← h2]
          simp only
          rw [h6, List.reverse_reverse, h1]
          push_cast
          ring
        · rw [List.flatMap_cons]
          rcases h7 t ht with h | ⟨t', h4, h5⟩
          · exact ⟨by simp only [List.mem_append]; exact .inl (by simpa using h), hp _ (by simpa using h)⟩
          · obtain ⟨h8, h9⟩ := h3 t' h4
            rw [h5]
            exact ⟨by simp only [List.mem_append]; exact .inr h8, h9⟩
  obtain ⟨h1, h2⟩ := groupDigits_ok w
  obtain ⟨_, h3, h4⟩ := gen _ h2
  rw [h1] at h3 h4
  exact ⟨h3, h4⟩

end

/-! ## The tokens of a word -/

def termToks (t : Char × List Nat) : List Tok :=
  if t.2.sum = 1 then [.name (letterName t.1)] else .lpar :: [.name (letterName t.1), .op .star, .num t.2.sum] ++ [.rpar]

def termAst (t : Char × List Nat) : Ast :=
  if t.2.sum = 1 then .name (letterName t.1) else .bin .star (.name (letterName t.1)) (.num t.2.sum)

def wordToks (w : List Char) : List Tok :=
  .lpar :: (.num (wordParts w).num :: (wordParts w).ldict.flatMap (fun t => .op .plus :: termToks t)) ++ [.rpar]

def wordAst (w : List Char) : Ast := (wordParts w).ldict.foldl (fun a t => .bin .plus a (termAst t)) (.num (wordParts w).num)

theorem lex_term {t : Char × List Nat} (ht : isCap t.1 = true) {c : Char} (hc : c = ' ' ∨ c = ')') (cs : List Char) :
    lexGo (termText t ++ c :: cs) .start = (lexGo (c :: cs) .start).map (termToks t ++ ·) := by
  unfold termText termToks
  split
  · exact lex_letter ht hc cs
  · show lexGo ('(' :: t.1 :: ' ' :: '*' :: ' ' :: (natStr t.2.sum ++ [')']) ++ c :: cs) .start = _
    simp only [List.cons_append, List.append_assoc, List.singleton_append, List.nil_append]
    rw [lex_tok (t := .lpar) rfl, lex_letter ht (.inl rfl), lex_blank, lex_star (.inr (.inr rfl)), lex_blank, lex_num (.inr rfl),
      lex_tok (t := .rpar) rfl]
    cases lexGo (c :: cs) .start <;> rfl

theorem joinChars_eq (sep p : List Char) (ps : List (List Char)) : joinChars sep (p :: ps) = p ++ ps.flatMap (fun q => sep ++ q) := by
  induction ps generalizing p with
  | nil => simp [joinChars]
  | cons q ps ih => rw [joinChars, ih]; simp; simp

theorem lex_word {w : List Char} (hw : ∀ c ∈ w, isWordChar c = true) (r : List Char) :
    lexGo (wordText w ++ r) .start = (lexGo r .start).map (wordToks w ++ ·) := by
  have hcap : ∀ t ∈ (wordParts w).ldict, isCap t.1 = true := by
    intro t ht
    obtain ⟨h1, h2⟩ := (wordParts_ok (fun _ => 0) w).2 t ht
    have := hw _ h1
    simpa [isWordChar, h2] using this
  have gen : ∀ D : List (Char × List Nat), (∀ t ∈ D, isCap t.1 = true) →
      (∃ c cs, (D.map termText).flatMap (fun q => " + ".toList ++ q) ++ ')' :: r = c :: cs ∧ (c = ' ' ∨ c = ')')) ∧
      lexGo ((D.map termText).flatMap (fun q => " + ".toList ++ q) ++ ')' :: r) .start =
        (lexGo r .start).map ((D.flatMap (fun t => .op .plus :: termToks t) ++ [.rpar]) ++ ·) := by
    intro D
    induction D with
    | nil => intro _; exact ⟨⟨')', r, rfl, .inr rfl⟩, lex_tok (t := .rpar) rfl r⟩
    | cons t D ih =>
      intro h
      obtain ⟨⟨c, cs, h1, h2⟩, h3⟩ := ih (fun x hx => h x (by simp [hx]))
      refine ⟨⟨' ', _, rfl, .inl rfl⟩, ?_⟩
      rw [List.map_cons, List.flatMap_cons, List.append_assoc]
      rw [h1] at h3 ⊢
      show lexGo (' ' :: '+' :: ' ' :: (termText t ++ c :: cs)) .start = _
      rw [lex_blank, lex_tok (t := .op .plus) rfl, lex_blank, lex_term (h t (by simp)) h2, h3]
      cases lexGo r .start <;> simp
  obtain ⟨⟨c, cs, h1, h2⟩, h3⟩ := gen _ hcap
  have e : wordText w ++ r = '(' :: (natStr (wordParts w).num ++ ((((wordParts w).ldict.map termText).flatMap (fun q => " + ".toList ++ q)) ++ ')' :: r)) := by
    show "(".toList ++ joinChars " + ".toList (natStr (wordParts w).num :: (wordParts w).ldict.map termText) ++ ")".toList ++ r = _
    rw [joinChars_eq]
    simp
  rw [e]
  rw [h1] at h3 ⊢
  rw [lex_tok (t := .lpar) rfl, lex_num h2, h3]
  cases lexGo r .start <;> simp [wordToks]

theorem term_phrase {t : Char × List Nat} (ht : isCap t.1 = true) : Phrase (termToks t) 10 (termAst t) := by
  obtain ⟨_, _, _, _, _, hk⟩ := cap_facts ht
  unfold termToks termAst
  split
  · exact .name hk
  · exact .paren (bin_phrase (o := .star) (m := 7) rfl (by simp) (.name hk) (.num t.2.sum) (by omega) (by omega))

theorem word_phrase {w : List Char} (hw : ∀ c ∈ w, isWordChar c = true) : Phrase (wordToks w) 10 (wordAst w) := by
  have hcap : ∀ t ∈ (wordParts w).ldict, isCap t.1 = true := by
    intro t ht
    obtain ⟨h1, h2⟩ := (wordParts_ok (fun _ => 0) w).2 t ht
    have := hw _ h1
    simpa [isWordChar, h2] using this
  have gen : ∀ (D : List (Char × List Nat)) (toks : List Tok) (a : Ast), (∀ t ∈ D, isCap t.1 = true) → Chain 6 toks a → Phrase0 toks a →
      Phrase0 (toks ++ D.flatMap (fun t => .op .plus :: termToks t)) (D.foldl (fun a t => .bin .plus a (termAst t)) a) := by
    intro D
    induction D with
    | nil => intro toks a _ _ h; simpa using h
    | cons t D ih =>
      intro toks a h hc _
      obtain ⟨h1, h2⟩ := hc.op (o := .plus) (.inl rfl) rfl (term_phrase (h t (by simp))) (by omega)
      have := ih _ _ (fun x hx => h x (by simp [hx])) h1 h2.zero
      rw [List.append_assoc] at this
      exact this
  exact .paren (gen _ [.num (wordParts w).num] _ hcap ((Phrase.num _).chain (.inl rfl) (by omega)) (Phrase.num _).zero)

/-! ## Running it -/

/-- `o` has the value `f`, and stays harmless under a minus. -/
structure DenP (xs : List Name) (o : Obj) (f : (Name → Int) → Int) : Prop where
  den : Den xs o f
  plain : NiceO true o

section
variable {xs : List Name} {a b : Obj} {f g : (Name → Int) → Int}

theorem DenP.int (n : Int) : DenP xs (.int n) (fun _ => n) := ⟨.int n, .const n⟩

theorem DenP.var {x : Name} (hx : x ∈ xs) : DenP xs (.expr (.var x)) (fun s => s x) := ⟨.var hx, .var x⟩

theorem DenP.add (ha : DenP xs a f) (hb : DenP xs b g) : DenP xs (a.add b) (fun s => f s + g s) :=
  ⟨ha.den.add hb.den, apply_nice (o := .add) rfl ha.plain hb.plain (by simp) (by simp)⟩

theorem DenP.mul (ha : DenP xs a f) (hb : DenP xs b g) : DenP xs (a.mul b) (fun s => f s * g s) :=
  ⟨ha.den.mul hb.den, apply_nice (o := .mul) rfl ha.plain hb.plain (by simp) (by simp)⟩

theorem DenP.sub (ha : DenP xs a f) (hb : DenP xs b g) : DenP xs (a.sub b) (fun s => f s - g s) :=
  ⟨⟨fun x hx => (C03_vars_sub a b x hx).elim (ha.den.vars x) (hb.den.vars x),
     apply_nice (o := .sub) rfl ha.den.nice hb.den.nice (by simp) (fun _ => .inr hb.plain),
     fun ρ σ h => C01_sub (ha.den.eval ρ σ h) (hb.den.eval ρ σ h),
     fun i hi => (mem_params_sub a b i hi).elim (ha.den.params i) (hb.den.params i)⟩,
   apply_nice (o := .sub) rfl ha.plain hb.plain (by simp) (fun _ => .inr hb.plain)⟩

theorem DenP.neg (ha : DenP xs a f) : DenP xs a.neg (fun s => -f s) := by
  have hn : ∀ q, NiceO q a.neg := by
    intro q
    cases a with
    | int n => exact .const _
    | expr e => exact .neg ha.plain
  refine ⟨⟨fun x hx => ?_, hn false, fun ρ σ h => C01_neg (ha.den.eval ρ σ h), fun i hi => ?_⟩, hn true⟩
  · cases a with
    | int n => simp [Obj.neg, objVars, coerce, Expr.vars] at hx
    | expr e => exact ha.den.vars x (by
      have : x ∈ dedup e.vars := hx
      exact (mem_dedup _ _).1 this)
  · cases a with
    | int n => simp [Obj.neg, objParams, coerce, Expr.params] at hi
    | expr e => exact ha.den.params i (by simpa [Obj.neg, objParams, coerce, Expr.params] using hi)

theorem DenP.congr (ha : DenP xs a f) (h : ∀ s, f s = g s) : DenP xs a g := by
  have : f = g := funext h
  rw [← this]; exact ha

end

/-- The letters of the word are variables. -/
def LetterVar (env : List (Name × Expr)) (xs : List Name) (c : Char) : Prop :=
  aget env (letterName c) = some (.var (letterName c)) ∧ letterName c ∈ xs

/-! ### The factors are positive -/

theorem ldictAppend_pos {D : List (Char × List Nat)} {l : Char} {x : Nat} (hx : 0 < x) (hD : ∀ t ∈ D, 0 < t.2.sum) :
    ∀ t ∈ ldictAppend D l x, 0 < t.2.sum := by
  induction D with
  | nil => intro t ht; simp only [ldictAppend, List.mem_singleton] at ht; subst ht; simpa using hx
  | cons q D ih =>
    obtain ⟨k, xs⟩ := q
    intro t ht
    rw [ldictAppend] at ht
    split at ht
    · rcases List.mem_cons.1 ht with rfl | ht
      · simp only [List.sum_append, List.sum_cons, List.sum_nil]; omega
      · exact hD t (by simp [ht])
    · rcases List.mem_cons.1 ht with rfl | ht
      · exact hD _ (by simp)
      · exact ih (fun t ht => hD t (by simp [ht])) t ht

theorem ldictPart_pos {p10 : Nat} (hp : 0 < p10) (ls : List Char) (c : Nat) {D : List (Char × List Nat)} (hD : ∀ t ∈ D, 0 < t.2.sum) :
    ∀ t ∈ ldictPart p10 c ls D, 0 < t.2.sum := by
  induction ls generalizing c D with
  | nil => exact hD
  | cons l ls ih => exact ih (c + 1) (ldictAppend_pos (Nat.mul_pos hp (Nat.pow_pos (by omega))) hD)

theorem wordParts_pos (w : List Char) : ∀ t ∈ (wordParts w).ldict, 0 < t.2.sum := by
  have gen : ∀ (ps : List (Bool × List Char)) (st : WordSt), 0 < st.p10 → (∀ t ∈ st.ldict, 0 < t.2.sum) →
      ∀ t ∈ (ps.foldl wordPart st).ldict, 0 < t.2.sum := by
    intro ps
    induction ps with
    | nil => intro st _ h; exact h
    | cons p ps ih =>
      intro st h1 h2
      rw [List.foldl_cons]
      refine ih _ ?_ ?_
      · unfold wordPart; split <;> exact Nat.mul_pos h1 (Nat.pow_pos (by omega))
      · unfold wordPart
        split
        · exact h2
        · exact ldictPart_pos h1 _ 0 h2
  exact gen _ _ (by show 0 < 1; omega) (by simp)

/-- A word with a letter has a bigger value, if the letters stand for 1 instead of 0. -/
theorem wordVal_lt {w : List Char} (h : ∃ c ∈ w, ¬ IsDigit c) : wordVal (fun _ => 0) w < wordVal (fun _ => 1) w := by
  have gen : ∀ (w : List Char) (m n : Int), m ≤ n → (m < n ∨ ∃ c ∈ w, ¬ IsDigit c) →
      w.foldl (fun n c => 10 * n + charVal (fun _ => 0) c) m < w.foldl (fun n c => 10 * n + charVal (fun _ => 1) c) n := by
    intro w
    induction w with
    | nil => intro m n _ h; simpa using h
    | cons c w ih =>
      intro m n hle h
      rw [List.foldl_cons, List.foldl_cons]
      by_cases hc : IsDigit c
      · refine ih _ _ (by simp only [charVal, if_pos hc]; omega) ?_
        rcases h with h | ⟨x, hx, hd⟩
        · left; simp only [charVal, if_pos hc]; omega
        · rcases List.mem_cons.1 hx with rfl | hx
          · exact absurd hc hd
          · exact .inr ⟨x, hx, hd⟩
      · have : 10 * m + charVal (fun _ => 0) c < 10 * n + charVal (fun _ => 1) c := by
          simp only [charVal, if_neg hc]; omega
        exact ih _ _ (by omega) (.inl this)
  exact gen w 0 0 (by omega) (.inr h)

theorem word_run {env : List (Name × Expr)} {xs : List Name} {w : List Char} (h : ∀ c ∈ w, isDig c = false → LetterVar env xs c) :
    ∃ o, (wordAst w).run env = .ok o ∧ DenP xs o (fun s => wordVal (fun c => s (letterName c)) w) ∧ FoldsTo (CTree.word w).folded o := by
  have hterm : ∀ t ∈ (wordParts w).ldict, ∃ o, (termAst t).run env = .ok o ∧ DenP xs o (fun s => s (letterName t.1) * (t.2.sum : Nat)) ∧
      FoldsTo .formula o := by
    intro t ht
    obtain ⟨h1, h2⟩ := (wordParts_ok (fun _ => 0) w).2 t ht
    obtain ⟨h3, h4⟩ := h _ h1 h2
    have hpos := wordParts_pos w t ht
    have hv : FoldsTo .formula (.expr (.var (letterName t.1))) := ⟨_, rfl, .var _⟩
    unfold termAst
    split
    · rename_i hs
      exact ⟨.expr (.var (letterName t.1)), by simp [Ast.run, h3], (DenP.var h4).congr (fun s => by simp [hs]), hv⟩
    · refine ⟨Obj.mul (.expr (.var (letterName t.1))) (.int (t.2.sum : Nat)), by simp [Ast.run, h3, OpTok.applyObj], (DenP.var h4).mul (.int _), ?_⟩
      have := hv.mul (g := .number (t.2.sum : Nat)) (b := .int (t.2.sum : Nat)) rfl
      rwa [show Folded.mul .formula (.number (t.2.sum : Nat)) = .formula from by
        simp only [Folded.mul, Folded.value?]; rw [if_neg (by omega)]] at this
  have gen : ∀ (D : List (Char × List Nat)) (a : Ast) (o : Obj) (f : (Name → Int) → Int) (F : Folded),
      (∀ t ∈ D, ∃ o, (termAst t).run env = .ok o ∧ DenP xs o (fun s => s (letterName t.1) * (t.2.sum : Nat)) ∧ FoldsTo .formula o) →
      a.run env = .ok o → DenP xs o f → FoldsTo F o →
      ∃ o', (D.foldl (fun a t => Ast.bin .plus a (termAst t)) a).run env = .ok o' ∧
        DenP xs o' (fun s => f s + ldictSum (fun c => s (letterName c)) D) ∧ FoldsTo (if D = [] then F else .formula) o' := by
    intro D
    induction D with
    | nil => intro a o f F _ h1 h2 hF; exact ⟨o, h1, h2.congr (fun s => by simp [ldictSum]), hF⟩
    | cons t D ih =>
      intro a o f F h h1 h2 hF
      obtain ⟨o1, h3, h4, h7⟩ := h t (by simp)
      have hF' : FoldsTo .formula (o.add o1) := by
        have := hF.add h7
        cases F <;> simpa [Folded.add, Folded.value?] using this
      obtain ⟨o', h5, h6, h8⟩ := ih (Ast.bin .plus a (termAst t)) (o.add o1) _ _ (fun x hx => h x (by simp [hx]))
        (by simp [Ast.run, h1, h3, OpTok.applyObj]) (h2.add h4) hF'
      exact ⟨o', h5, h6.congr (fun s => by simp [ldictSum, Int.add_assoc]), by simpa using h8⟩
  obtain ⟨o, h1, h2, h3⟩ := gen _ (.num (wordParts w).num) (.int ((wordParts w).num : Nat)) _ (.number (wordParts w).num) hterm rfl (.int _) rfl
  refine ⟨o, h1, h2.congr (fun s => (wordParts_ok _ w).1), ?_⟩
  rw [CTree.folded]
  by_cases hd : ∀ c ∈ w, IsDigit c
  · have he : (wordParts w).ldict = [] := List.eq_nil_iff_forall_not_mem.2 (fun t ht => by
      obtain ⟨h4, h5⟩ := (wordParts_ok (fun _ => 0) w).2 t ht
      rw [(isDig_iff _).2 (hd _ h4)] at h5
      cases h5)
    rw [if_pos he] at h3
    rw [if_pos hd, ← (wordParts_ok (fun _ => 0) w).1, he]
    simpa [ldictSum] using h3
  · rw [if_neg hd]
    rw [if_neg] at h3
    · exact h3
    · intro he
      push Not at hd
      have := wordVal_lt hd
      rw [← (wordParts_ok (fun _ => 0) w).1, ← (wordParts_ok (fun _ => 1) w).1, he] at this
      simp [ldictSum] at this

theorem wordAst_plain (w : List Char) (env : List (Name × Expr)) : (wordAst w).isBool env = false := by
  unfold wordAst
  rcases List.eq_nil_or_concat (wordParts w).ldict with h | ⟨D, t, h⟩
  · rw [h]; rfl
  · rw [h, List.concat_eq_append, List.foldl_append]; rfl

/-! ## The whole text -/

/-- What the text of an expression becomes. -/
structure Done (l : Nat) (U : List Char) (e : CTree) (x : List Char) (toks : List Tok) (a : Ast) : Prop where
  expand : ∀ r, NoWord r → expandGo (U ++ r) [] = x ++ expandGo r []
  words : ∀ r, NoWord r → wordsOf (U ++ r) [] = e.words ++ wordsOf r []
  alnum : ∀ w ∈ e.words, w ≠ [] ∧ ∀ c ∈ w, isWordChar c = true
  plain : ∀ env, a.isBool env = false
  head : ∃ c cs, x = c :: cs ∧ (c = '(' ∨ c = '-' ∨ c = ' ')
  lex : ∀ r, lexGo (x ++ r) .start = (lexGo r .start).map (toks ++ ·)
  phrase : ∃ L, l ≤ L ∧ Phrase toks L a
  chain : l = 6 ∨ l = 7 → Chain l toks a
  run : ∀ env xs, (∀ w ∈ e.words, ∀ c ∈ w, isDig c = false → LetterVar env xs c) →
    ∃ o, a.run env = .ok o ∧ DenP xs o (fun s => e.value (fun c => s (letterName c))) ∧ FoldsTo e.folded o

theorem noWord_cons {c : Char} (h : isWordChar c = false) (r : List Char) : NoWord (c :: r) := by
  intro d hd; cases hd; exact h

theorem text_done {l : Nat} {s : List Char} {e : CTree} (h : CText l s e) : ∃ x toks a, Done l (s.map Char.toUpper) e x toks a := by
  induction h with
  | @word w hne hw =>
    have hu : ∀ c ∈ w.map Char.toUpper, isWordChar c = true := by
      intro c hc
      obtain ⟨c', hc', rfl⟩ := List.mem_map.1 hc
      exact cap_or (hw c' hc')
    have hne' : w.map Char.toUpper ≠ [] := by simpa using hne
    generalize w.map Char.toUpper = u at hu hne'
    refine ⟨wordText u, wordToks u, wordAst u, ?_, ?_, ?_, wordAst_plain u, ⟨'(', _, rfl, .inl rfl⟩, lex_word hu, ⟨10, by omega, word_phrase hu⟩, by omega, ?_⟩
    · intro r hr; rw [(expand_word hu).1, List.nil_append]; exact (expand_flush hne' hr).1
    · intro r hr; rw [(expand_word hu).2, List.nil_append]; exact (expand_flush hne' hr).2
    · intro v hv; rw [CTree.words, List.mem_singleton] at hv; subst hv; exact ⟨hne', hu⟩
    · intro env xs henv
      exact word_run (henv u (by simp [CTree.words]))
  | @paren s a _ ih =>
    obtain ⟨x, toks, ast, h⟩ := ih
    obtain ⟨L, _, hL⟩ := h.phrase
    have hp : NoWord [')'] := noWord_cons rfl []
    refine ⟨'(' :: x ++ [')'], .lpar :: toks ++ [.rpar], ast, ?_, ?_, h.alnum, h.plain, ⟨'(', _, rfl, .inl rfl⟩, ?_, ⟨10, by omega, .paren hL.zero⟩, by omega, h.run⟩
    · intro r hr
      have := h.expand (')' :: r) (noWord_cons rfl r)
      rw [(expand_cons (c := ')') rfl r).1] at this
      simp only [List.map_cons, List.map_append, List.map_nil, List.cons_append, List.append_assoc, List.nil_append, show Char.toUpper '(' = '(' from rfl,
        show Char.toUpper ')' = ')' from rfl, (expand_cons (c := '(') rfl _).1, this]
    · intro r hr
      have := h.words (')' :: r) (noWord_cons rfl r)
      rw [(expand_cons (c := ')') rfl r).2] at this
      simp only [List.map_cons, List.map_append, List.map_nil, List.cons_append, List.append_assoc, List.nil_append, show Char.toUpper '(' = '(' from rfl,
        show Char.toUpper ')' = ')' from rfl, (expand_cons (c := '(') rfl _).2, this]
    · intro r
      simp only [List.cons_append, List.append_assoc, List.nil_append]
      rw [lex_tok (t := .lpar) rfl, h.lex, lex_tok (t := .rpar) rfl]
      cases lexGo r .start <;> simp
  | @neg s a _ ih =>
    obtain ⟨x, toks, ast, h⟩ := ih
    obtain ⟨L, hl, hL⟩ := h.phrase
    refine ⟨'-' :: x, .op .minus :: toks, .neg ast, ?_, ?_, h.alnum, fun _ => rfl, ⟨'-', _, rfl, .inr (.inl rfl)⟩, ?_, ⟨8, by omega, .minus hL hl⟩, by omega, ?_⟩
    · intro r hr
      simp only [List.map_cons, List.cons_append, show Char.toUpper '-' = '-' from rfl, (expand_cons (c := '-') rfl _).1, h.expand r hr]
    · intro r hr
      simp only [List.map_cons, List.cons_append, show Char.toUpper '-' = '-' from rfl, (expand_cons (c := '-') rfl _).2, h.words r hr, CTree.words]
    · intro r
      simp only [List.cons_append]
      rw [lex_tok (t := .op .minus) rfl, h.lex]
      cases lexGo r .start <;> simp
    · intro env xs henv
      obtain ⟨o, h1, h2, hf⟩ := h.run env xs henv
      exact ⟨o.neg, by simp [Ast.run, h1], h2.neg, hf.neg⟩
  | @mul s t a b _ _ ih1 ih2 =>
    obtain ⟨x, toks, ast, h⟩ := ih1
    obtain ⟨x', toks', ast', h'⟩ := ih2
    obtain ⟨L, hl, hL⟩ := h'.phrase
    obtain ⟨c1, c2⟩ := (h.chain (.inr rfl)).op (o := .star) (.inr rfl) rfl hL (by omega)
    obtain ⟨y, ys, hx', hy⟩ := h'.head
    obtain ⟨z, zs, hx, hz⟩ := h.head
    refine ⟨x ++ '*' :: x', toks ++ .op .star :: toks', .bin .star ast ast', ?_, ?_, ?_, fun _ => rfl, ⟨z, _, by rw [hx]; rfl, hz⟩, ?_, ⟨7, by omega, c2⟩, fun _ => c1, ?_⟩
    · intro r hr
      simp only [List.map_append, List.map_cons, List.append_assoc, List.cons_append, show Char.toUpper '*' = '*' from rfl]
      rw [h.expand _ (noWord_cons rfl _), (expand_cons (c := '*') rfl _).1, h'.expand r hr]
    · intro r hr
      simp only [List.map_append, List.map_cons, List.append_assoc, List.cons_append, show Char.toUpper '*' = '*' from rfl]
      rw [h.words _ (noWord_cons rfl _), (expand_cons (c := '*') rfl _).2, h'.words r hr, CTree.words, List.append_assoc]
    · intro w hw; rcases List.mem_append.1 hw with hw | hw
      · exact h.alnum w hw
      · exact h'.alnum w hw
    · intro r
      have := h'.lex r
      simp only [List.append_assoc, List.cons_append]
      rw [hx'] at this ⊢
      rw [h.lex, List.cons_append, lex_star hy, ← List.cons_append, this]
      cases lexGo r .start <;> simp
    · intro env xs henv
      obtain ⟨o, h1, h2, hf⟩ := h.run env xs (fun w hw => henv w (List.mem_append_left _ hw))
      obtain ⟨o', h3, h4, hf'⟩ := h'.run env xs (fun w hw => henv w (List.mem_append_right _ hw))
      exact ⟨o.mul o', by simp [Ast.run, h1, h3, OpTok.applyObj], h2.mul h4, hf.mul hf'⟩
  | @add s t a b _ _ ih1 ih2 =>
    obtain ⟨x, toks, ast, h⟩ := ih1
    obtain ⟨x', toks', ast', h'⟩ := ih2
    obtain ⟨L, hl, hL⟩ := h'.phrase
    obtain ⟨c1, c2⟩ := (h.chain (.inl rfl)).op (o := .plus) (.inl rfl) rfl hL (by omega)
    obtain ⟨z, zs, hx, hz⟩ := h.head
    refine ⟨x ++ '+' :: x', toks ++ .op .plus :: toks', .bin .plus ast ast', ?_, ?_, ?_, fun _ => rfl, ⟨z, _, by rw [hx]; rfl, hz⟩, ?_, ⟨6, by omega, c2⟩, fun _ => c1, ?_⟩
    · intro r hr
      simp only [List.map_append, List.map_cons, List.append_assoc, List.cons_append, show Char.toUpper '+' = '+' from rfl]
      rw [h.expand _ (noWord_cons rfl _), (expand_cons (c := '+') rfl _).1, h'.expand r hr]
    · intro r hr
      simp only [List.map_append, List.map_cons, List.append_assoc, List.cons_append, show Char.toUpper '+' = '+' from rfl]
      rw [h.words _ (noWord_cons rfl _), (expand_cons (c := '+') rfl _).2, h'.words r hr, CTree.words, List.append_assoc]
    · intro w hw; rcases List.mem_append.1 hw with hw | hw
      · exact h.alnum w hw
      · exact h'.alnum w hw
    · intro r
      simp only [List.append_assoc, List.cons_append]
      rw [h.lex, lex_tok (t := .op .plus) rfl, h'.lex]
      cases lexGo r .start <;> simp
    · intro env xs henv
      obtain ⟨o, h1, h2, hf⟩ := h.run env xs (fun w hw => henv w (List.mem_append_left _ hw))
      obtain ⟨o', h3, h4, hf'⟩ := h'.run env xs (fun w hw => henv w (List.mem_append_right _ hw))
      exact ⟨o.add o', by simp [Ast.run, h1, h3, OpTok.applyObj], h2.add h4, hf.add hf'⟩
  | @sub s t a b _ _ ih1 ih2 =>
    obtain ⟨x, toks, ast, h⟩ := ih1
    obtain ⟨x', toks', ast', h'⟩ := ih2
    obtain ⟨L, hl, hL⟩ := h'.phrase
    obtain ⟨c1, c2⟩ := (h.chain (.inl rfl)).op (o := .minus) (.inl rfl) rfl hL (by omega)
    obtain ⟨z, zs, hx, hz⟩ := h.head
    refine ⟨x ++ '-' :: x', toks ++ .op .minus :: toks', .bin .minus ast ast', ?_, ?_, ?_, fun _ => rfl, ⟨z, _, by rw [hx]; rfl, hz⟩, ?_, ⟨6, by omega, c2⟩, fun _ => c1, ?_⟩
    · intro r hr
      simp only [List.map_append, List.map_cons, List.append_assoc, List.cons_append, show Char.toUpper '-' = '-' from rfl]
      rw [h.expand _ (noWord_cons rfl _), (expand_cons (c := '-') rfl _).1, h'.expand r hr]
    · intro r hr
      simp only [List.map_append, List.map_cons, List.append_assoc, List.cons_append, show Char.toUpper '-' = '-' from rfl]
      rw [h.words _ (noWord_cons rfl _), (expand_cons (c := '-') rfl _).2, h'.words r hr, CTree.words, List.append_assoc]
    · intro w hw; rcases List.mem_append.1 hw with hw | hw
      · exact h.alnum w hw
      · exact h'.alnum w hw
    · intro r
      simp only [List.append_assoc, List.cons_append]
      rw [h.lex, lex_tok (t := .op .minus) rfl, h'.lex]
      cases lexGo r .start <;> simp
    · intro env xs henv
      obtain ⟨o, h1, h2, hf⟩ := h.run env xs (fun w hw => henv w (List.mem_append_left _ hw))
      obtain ⟨o', h3, h4, hf'⟩ := h'.run env xs (fun w hw => henv w (List.mem_append_right _ hw))
      exact ⟨o.sub o', by simp [Ast.run, h1, h3, OpTok.applyObj], h2.sub h4, hf.sub hf'⟩
  | factor _ ih =>
    obtain ⟨x, toks, ast, h⟩ := ih
    obtain ⟨L, hl, hL⟩ := h.phrase
    exact ⟨x, toks, ast, { h with phrase := ⟨L, by omega, hL⟩, chain := fun _ => hL.chain (.inr rfl) (by omega) }⟩
  | @term s a ht ih =>
    obtain ⟨x, toks, ast, h⟩ := ih
    obtain ⟨L, hl, hL⟩ := h.phrase
    exact ⟨x, toks, ast, { h with phrase := ⟨L, by omega, hL⟩, chain := fun _ => hL.chain (.inl rfl) (by omega) }⟩
  | @blankL l s a _ ih =>
    obtain ⟨x, toks, ast, h⟩ := ih
    refine ⟨' ' :: x, toks, ast, { h with expand := ?_, words := ?_, head := ⟨' ', x, rfl, .inr (.inr rfl)⟩, lex := ?_ }⟩
    · intro r hr
      simp only [List.map_cons, List.cons_append, show Char.toUpper ' ' = ' ' from rfl, (expand_cons (c := ' ') rfl _).1, h.expand r hr]
    · intro r hr
      simp only [List.map_cons, List.cons_append, show Char.toUpper ' ' = ' ' from rfl, (expand_cons (c := ' ') rfl _).2, h.words r hr]
    · intro r; rw [List.cons_append, lex_blank, h.lex]
  | @blankR l s a _ ih =>
    obtain ⟨x, toks, ast, h⟩ := ih
    obtain ⟨z, zs, hx, hz⟩ := h.head
    refine ⟨x ++ [' '], toks, ast, { h with expand := ?_, words := ?_, head := ⟨z, _, by rw [hx]; rfl, hz⟩, lex := ?_ }⟩
    · intro r hr
      simp only [List.map_append, List.map_cons, List.map_nil, List.append_assoc, List.singleton_append, show Char.toUpper ' ' = ' ' from rfl]
      rw [h.expand _ (noWord_cons rfl _), (expand_cons (c := ' ') rfl _).1]
    · intro r hr
      simp only [List.map_append, List.map_cons, List.map_nil, List.append_assoc, List.singleton_append, show Char.toUpper ' ' = ' ' from rfl]
      rw [h.words _ (noWord_cons rfl _), (expand_cons (c := ' ') rfl _).2]
    · intro r; rw [List.append_assoc, h.lex, List.singleton_append, lex_blank]

end Satisfy
