import Verif.Cryptarithm
import Verif.SpecCryptarithm
import Verif.Lemmas.Build
import Mathlib.Tactic.Ring
/-! Cryptarithms: the text handed to `eval`. -/

namespace Satisfy

/-! ## Characters -/

theorem isDig_iff (c : Char) : isDig c = true ↔ IsDigit c := by simp [isDig, IsDigit]

theorem toUpper_dig {c : Char} (h : IsDigit c) : c.toUpper = c := by
  have : ¬ (c ≥ 'a' ∧ c ≤ 'z') := by
    rintro ⟨h1, _⟩
    have h1 : 'a'.toNat ≤ c.toNat := h1
    have h2 : c.toNat ≤ '9'.toNat := h.2
    have : 'a'.toNat = 97 := rfl
    have : '9'.toNat = 57 := rfl
    omega
  unfold Char.toUpper
  simp only [ge_iff_le, Char.le_def] at this ⊢
  rw [dif_neg this]

theorem cap_or {c : Char} (h : IsAlnum c) : isWordChar c.toUpper = true := by
  have key : ∀ n : Nat, n < 123 → isWordChar (Char.toUpper (Char.ofNat n)) = true ∨ ¬ IsAlnum (Char.ofNat n) := by decide +kernel
  have hc : c.toNat < 123 := by
    rcases h with ⟨_, h⟩ | ⟨_, h⟩ | ⟨_, h⟩
    · have h : c.toNat ≤ 'Z'.toNat := h
      have : 'Z'.toNat = 90 := rfl
      omega
    · have h : c.toNat ≤ 'z'.toNat := h
      have : 'z'.toNat = 122 := rfl
      omega
    · have h : c.toNat ≤ '9'.toNat := h
      have : '9'.toNat = 57 := rfl
      omega
  have := key c.toNat hc
  rw [Char.ofNat_toNat] at this
  exact this.resolve_right (fun hn => hn h)

/-! ## Replacing the words -/

/-- The replacement of a run of word characters. -/
def flushWord (run : List Char) : List Char := if run = [] then [] else wordText run

/-- Every maximal run of word characters replaced; `run` is the current one. -/
def expandGo : List Char → List Char → List Char
  | [], run => flushWord run
  | c :: cs, run => if isWordChar c then expandGo cs (run ++ [c]) else flushWord run ++ c :: expandGo cs []

/-- The maximal runs. -/
def wordsOf : List Char → List Char → List (List Char)
  | [], run => if run = [] then [] else [run]
  | c :: cs, run => if isWordChar c then wordsOf cs (run ++ [c]) else (if run = [] then [] else [run]) ++ wordsOf cs []

/-- `non_zero_letters` after a word. -/
def nonZeroAdd (s : List Char) (w : List Char) : List Char := match w with
  | [] => s
  | c :: _ => if isDig c then s else charAdd s c

theorem cryptWord_ok {source pre run rest done : List Char} {st : CryptSt} (hs : source = pre ++ run ++ rest) (hr : run ≠ [])
    (hm : st.mod = done ++ run ++ rest) (ho : st.offset = (done.length : Int) - pre.length) :
    cryptWord source st (pre.length, (pre ++ run).length) = .ok ⟨done ++ wordText run ++ rest,
      ((done ++ wordText run).length : Int) - ((pre ++ run).length : Nat), wordLetters run st.letters, nonZeroAdd st.nonZero run⟩ := by
  have hn : (source.take (pre ++ run).length).drop pre.length = run := by
    rw [hs, List.take_left, List.drop_left]
  cases run with
  | nil => exact absurd rfl hr
  | cons c cs =>
    unfold cryptWord
    simp only [hn]
    congr 2
    · rw [hm, ho]
      have e1 : (done.length : Int) - pre.length + pre.length = (done.length : Nat) := by omega
      have e2 : (done.length : Int) - pre.length + ((pre ++ c :: cs).length : Nat) = ((done ++ c :: cs).length : Nat) := by
        simp only [List.length_append]; omega
      rw [e1, e2]
      have s1 : sliceTo (done ++ c :: cs ++ rest) (done.length : Nat) = done := by
        unfold sliceTo sliceBound
        rw [if_pos (by omega), Int.toNat_natCast, Nat.min_eq_left (by simp), List.append_assoc, List.take_left]
      have s2 : sliceFrom (done ++ c :: cs ++ rest) ((done ++ c :: cs).length : Nat) = rest := by
        unfold sliceFrom sliceBound
        rw [if_pos (by omega), Int.toNat_natCast, Nat.min_eq_left (by simp), List.drop_left]
      rw [s1, s2]
    · rw [ho]; simp only [List.length_append]; omega

theorem cryptWords_ok (source : List Char) (rest : List Char) : ∀ (pre run done : List Char) (st : CryptSt), source = pre ++ run ++ rest →
    st.mod = done ++ run ++ rest → st.offset = (done.length : Int) - pre.length →
    ∃ off, cryptWords source (wordSpans (pre ++ run).length (if run = [] then none else some pre.length) rest) st =
      .ok ⟨done ++ expandGo rest run, off, (wordsOf rest run).foldl (fun s w => wordLetters w s) st.letters,
        (wordsOf rest run).foldl nonZeroAdd st.nonZero⟩ := by
  induction rest with
  | nil =>
    intro pre run done st hs hm ho
    by_cases hr : run = []
    · subst hr
      refine ⟨st.offset, ?_⟩
      simp only [List.append_nil] at hm
      simp [wordSpans, cryptWords, expandGo, flushWord, wordsOf, ← hm]
    · have := cryptWord_ok hs hr hm ho
      rw [if_neg hr, wordSpans, cryptWords, this]
      refine ⟨((done ++ wordText run).length : Int) - ((pre ++ run).length : Nat), ?_⟩
      simp only [ok_bind, cryptWords, expandGo, flushWord, wordsOf, hr, if_false, List.append_nil, List.foldl_cons, List.foldl_nil]
  | cons c cs ih =>
    intro pre run done st hs hm ho
    by_cases hc : isWordChar c = true
    · obtain ⟨off, h⟩ := ih pre (run ++ [c]) done st (by simp [hs]) (by simp [hm]) ho
      refine ⟨off, ?_⟩
      rw [if_neg (by simp)] at h
      have e : wordSpans (pre ++ run).length (if run = [] then none else some pre.length) (c :: cs) =
          wordSpans (pre ++ (run ++ [c])).length (some pre.length) cs := by
        by_cases hr : run = []
        · subst hr; simp [wordSpans, hc]
        · simp [wordSpans, hc, hr, Nat.add_assoc]
      rw [e, h]
      simp [expandGo, wordsOf, hc]
    · have hexp : expandGo (c :: cs) run = flushWord run ++ c :: expandGo cs [] := by simp [expandGo, hc]
      have hwo : wordsOf (c :: cs) run = (if run = [] then [] else [run]) ++ wordsOf cs [] := by simp [wordsOf, hc]
      by_cases hr : run = []
      · subst hr
        obtain ⟨off, h⟩ := ih (pre ++ [c]) [] (done ++ [c]) st (by simp [hs]) (by simp [hm]) (by simp [ho])
        refine ⟨off, ?_⟩
        simp only [if_true, List.append_nil, List.length_append, List.length_singleton] at h
        rw [hexp, hwo]
        simp only [flushWord, if_true, List.append_nil, wordSpans, hc, List.nil_append, Bool.false_eq_true, if_false]
        rw [h]
        simp
      · have h1 := cryptWord_ok hs hr hm ho
        obtain ⟨off, h⟩ := ih (pre ++ run ++ [c]) [] (done ++ wordText run ++ [c])
          ⟨done ++ wordText run ++ c :: cs, ((done ++ wordText run).length : Int) - ((pre ++ run).length : Nat), wordLetters run st.letters, nonZeroAdd st.nonZero run⟩
          (by simp [hs]) (by simp) (by simp only [List.length_append, List.length_singleton]; omega)
        refine ⟨off, ?_⟩
        rw [hexp, hwo, if_neg hr, if_neg hr]
        simp only [flushWord, hr, if_false, wordSpans, hc, Bool.false_eq_true, cryptWords, h1, ok_bind]
        simp only [if_true, List.append_nil, List.length_append, List.length_singleton] at h
        simp only [List.length_append] at h ⊢
        rw [h]
        simp

/-- `r` does not start with a word character. -/
def NoWord (r : List Char) : Prop := ∀ c, r.head? = some c → isWordChar c = false

theorem expand_word {w r run : List Char} (h : ∀ c ∈ w, isWordChar c = true) : expandGo (w ++ r) run = expandGo r (run ++ w) ∧ wordsOf (w ++ r) run = wordsOf r (run ++ w) := by
  induction w generalizing run with
  | nil => simp
  | cons c w ih =>
    obtain ⟨h1, h2⟩ := ih (run := run ++ [c]) (fun d hd => h d (by simp [hd]))
    rw [List.cons_append, expandGo, wordsOf, if_pos (h c (by simp)), if_pos (h c (by simp)), h1, h2]
    simp

theorem expand_flush {w r : List Char} (hw : w ≠ []) (hr : NoWord r) : expandGo r w = wordText w ++ expandGo r [] ∧ wordsOf r w = w :: wordsOf r [] := by
  cases r with
  | nil => simp [expandGo, flushWord, wordsOf, hw]
  | cons c r =>
    have := hr c rfl
    simp [expandGo, flushWord, wordsOf, hw, this]

theorem expand_cons {c : Char} (hc : isWordChar c = false) (r : List Char) : expandGo (c :: r) [] = c :: expandGo r [] ∧ wordsOf (c :: r) [] = wordsOf r [] := by
  simp [expandGo, flushWord, wordsOf, hc]

/-! ## Tokens -/

theorem lex_tok {c : Char} {t : Tok} (h : lexStep .start c = some ([t], .start)) (cs : List Char) :
    lexGo (c :: cs) .start = (lexGo cs .start).map (t :: ·) := by
  rw [lexGo, h]; rfl

theorem lex_blank (cs : List Char) : lexGo (' ' :: cs) .start = lexGo cs .start := by
  rw [lexGo, show lexStep .start ' ' = some ([], .start) from rfl]; simp

/-- A number or name ends before a blank or a bracket. -/
theorem lex_end {c : Char} (hc : c = ' ' ∨ c = ')') (cs : List Char) :
    (∀ n, lexGo (c :: cs) (.num n) = (lexGo (c :: cs) .start).map (.num n :: ·)) ∧
    (∀ s, lexGo (c :: cs) (.name s) = (lexGo (c :: cs) .start).map (.name (String.ofList s.reverse) :: ·)) := by
  constructor
  · intro n
    rcases hc with rfl | rfl
    · rw [lex_blank, lexGo, show lexStep (.num n) ' ' = some ([.num n], .start) from rfl]; rfl
    · rw [lex_tok (t := .rpar) rfl, lexGo, show lexStep (.num n) ')' = some ([.num n, .rpar], .start) from rfl]
      simp only
      cases lexGo cs .start <;> rfl
  · intro n
    rcases hc with rfl | rfl
    · rw [lex_blank, lexGo, show lexStep (.name n) ' ' = some ([.name (String.ofList n.reverse)], .start) from rfl]; rfl
    · rw [lex_tok (t := .rpar) rfl, lexGo, show lexStep (.name n) ')' = some ([.name (String.ofList n.reverse), .rpar], .start) from rfl]
      simp only
      cases lexGo cs .start <;> rfl

theorem digitChar_facts {d : Nat} (h : d < 10) : isDig (digitChar d) = true ∧ (digitChar d).toNat - '0'.toNat = d ∧ digitChar d ≠ ' ' := by
  have : ∀ d < 10, isDig (digitChar d) = true ∧ (digitChar d).toNat - '0'.toNat = d ∧ digitChar d ≠ ' ' := by decide
  exact this d h

theorem lex_digit {d : Nat} (h : d < 10) (cs : List Char) : lexGo (digitChar d :: cs) .start = lexGo cs (.num d) := by
  obtain ⟨h1, h2, h3⟩ := digitChar_facts h
  rw [lexGo, lexStep, lexFresh, if_neg h3, if_pos h1, h2]; simp

theorem natStrGo_fuel {f g n : Nat} (hf : n < f) (hg : n < g) : natStrGo f n = natStrGo g n := by
  induction f generalizing g n with
  | zero => omega
  | succ f ih =>
    cases g with
    | zero => omega
    | succ g =>
      rw [natStrGo, natStrGo]
      split
      · rfl
      · rw [ih (g := g) (by omega) (by omega)]

theorem natStr_eq (n : Nat) : natStr n = if n < 10 then [digitChar n] else natStr (n / 10) ++ [digitChar (n % 10)] := by
  rw [natStr, natStrGo]
  split
  · rfl
  · rw [natStr, natStrGo_fuel (f := n) (g := n / 10 + 1) (by omega) (by omega)]

theorem lex_natStr (n : Nat) (cs : List Char) : lexGo (natStr n ++ cs) .start = lexGo cs (.num n) := by
  induction n using Nat.strongRecOn generalizing cs with
  | _ n ih =>
    rw [natStr_eq]
    split
    · rename_i h; exact lex_digit h cs
    · rename_i h
      rw [List.append_assoc, ih (n / 10) (by omega), List.singleton_append, lexGo, lexStep]
      obtain ⟨h1, h2, h3⟩ := digitChar_facts (d := n % 10) (by omega)
      simp only [h1, if_true]
      rw [if_neg (by omega), h2]
      simp only [List.nil_append, Option.map_id']
      congr 2; omega

theorem lex_num {c : Char} (hc : c = ' ' ∨ c = ')') (n : Nat) (cs : List Char) :
    lexGo (natStr n ++ c :: cs) .start = (lexGo (c :: cs) .start).map (.num n :: ·) := by
  rw [lex_natStr, (lex_end hc cs).1]

theorem cap_mem {c : Char} (h : isCap c = true) : c ∈ "ABCDEFGHIJKLMNOPQRSTUVWXYZ".toList := by
  have key : ∀ n : Nat, n < 91 → Char.ofNat n ∈ "ABCDEFGHIJKLMNOPQRSTUVWXYZ".toList ∨ isCap (Char.ofNat n) = false := by decide +kernel
  have hc : c.toNat < 91 := by
    have h : c.toNat ≤ 'Z'.toNat := by simp [isCap] at h; exact h.2
    have : 'Z'.toNat = 90 := rfl
    omega
  have := key c.toNat hc
  rw [Char.ofNat_toNat, h] at this
  simpa using this

theorem cap_facts {c : Char} (h : isCap c = true) :
    c ≠ ' ' ∧ isDig c = false ∧ c.isAlpha = true ∧ checkName (letterName c) = true ∧ NameOk (letterName c) ∧ letterName c ∉ pyKeywords := by
  have key : ∀ c ∈ "ABCDEFGHIJKLMNOPQRSTUVWXYZ".toList,
    c ≠ ' ' ∧ isDig c = false ∧ c.isAlpha = true ∧ checkName (letterName c) = true ∧ NameOk (letterName c) ∧ letterName c ∉ pyKeywords := by decide +kernel
  exact key c (cap_mem h)

theorem lex_letter {l : Char} (hl : isCap l = true) {c : Char} (hc : c = ' ' ∨ c = ')') (cs : List Char) :
    lexGo (l :: c :: cs) .start = (lexGo (c :: cs) .start).map (.name (letterName l) :: ·) := by
  obtain ⟨h1, h2, h3, _⟩ := cap_facts hl
  rw [lexGo, lexStep, lexFresh, if_neg h1, if_neg (by simp [h2]), if_pos (by simp [h3])]
  simp only [(lex_end hc cs).2]
  have : String.ofList [l] = letterName l := String.singleton_eq_ofList.symm
  cases lexGo (c :: cs) .start <;> simp only [List.reverse_singleton, this] <;> rfl

theorem lex_star {c : Char} (hc : c = '(' ∨ c = '-' ∨ c = ' ') (cs : List Char) :
    lexGo ('*' :: c :: cs) .start = (lexGo (c :: cs) .start).map (.op .star :: ·) := by
  rw [lexGo, show lexStep .start '*' = some ([], .op '*') from rfl]
  rcases hc with rfl | rfl | rfl <;> simp only [lexGo]
  · simp only [show lexStep (.op '*') '(' = some ([.op .star, .lpar], .start) from rfl, show lexStep .start '(' = some ([.lpar], .start) from rfl]
    cases lexGo cs .start <;> rfl
  · simp only [show lexStep (.op '*') '-' = some ([.op .star, .op .minus], .start) from rfl, show lexStep .start '-' = some ([.op .minus], .start) from rfl]
    cases lexGo cs .start <;> rfl
  · simp only [show lexStep (.op '*') ' ' = some ([.op .star], .start) from rfl, show lexStep .start ' ' = some ([], .start) from rfl]
    cases lexGo cs .start <;> rfl

theorem lex_eqeq (cs : List Char) : lexGo ('=' :: '=' :: cs) .start = (lexGo cs .start).map (.op .eq :: ·) := by
  rw [lexGo, show lexStep .start '=' = some ([], .op '=') from rfl]
  simp only [lexGo, show lexStep (.op '=') '=' = some ([.op .eq], .start) from rfl]
  cases lexGo cs .start <;> rfl

end Satisfy
