import Verif.Source
import Verif.Lemmas.CryptText
import Verif.Lemmas.ParseText
/-! # The tokens of printed expressions -/

namespace Satisfy

/-- The tokenizer knows words only. -/
def rawTok : Tok → Tok
  | .op .and => .name "and" | .op .or => .name "or" | .op .not => .name "not" | t => t

/-- Characters that follow an expression in a text. -/
def Follow (c : Char) : Prop := c = ' ' ∨ c = ')' ∨ c = ',' ∨ c = ']' ∨ c = ':'

/-- In front of such a character, `s` is split into the tokens `ts`. -/
def Reads (s : List Char) (ts : List Tok) : Prop :=
  ∀ c cs, Follow c → lexGo (s ++ c :: cs) .start = (lexGo (c :: cs) .start).map (ts.map rawTok ++ ·)

theorem map_app (o : Option (List Tok)) (a b : List Tok) : (o.map (a ++ ·)).map (b ++ ·) = o.map (b ++ a ++ ·) := by
  cases o <;> simp

theorem lex_fresh_of {p : Pending} {t : Tok} {c : Char} (h : ∃ ts p', lexStep .start c = some (ts, p') ∧ lexStep p c = some (t :: ts, p')) (cs : List Char) :
    lexGo (c :: cs) p = (lexGo (c :: cs) .start).map (t :: ·) := by
  obtain ⟨ts, p', h1, h2⟩ := h
  rw [lexGo, h2, lexGo, h1]
  simp only
  cases lexGo cs p' <;> simp

/-- A number or a name ends there. -/
theorem lex_follow {c : Char} (hc : Follow c) (cs : List Char) :
    (∀ n, lexGo (c :: cs) (.num n) = (lexGo (c :: cs) .start).map (.num n :: ·)) ∧
    (∀ s, lexGo (c :: cs) (.name s) = (lexGo (c :: cs) .start).map (.name (String.ofList s.reverse) :: ·)) := by
  constructor <;> intro n <;> apply lex_fresh_of <;> rcases hc with rfl | rfl | rfl | rfl | rfl <;> exact ⟨_, _, rfl, rfl⟩

theorem Reads.nat (n : Nat) : Reads (natStr n) [.num n] := by
  intro c cs hc
  rw [lex_natStr, (lex_follow hc cs).1]; rfl

theorem Reads.tok {a : Char} {t : Tok} (h : lexStep .start a = some ([rawTok t], .start)) {s ts} (hs : Reads s ts) : Reads (a :: s) (t :: ts) := by
  intro c cs hc
  rw [List.cons_append, lex_tok h, hs c cs hc]
  cases lexGo (c :: cs) .start <;> simp

theorem Reads.int (n : Int) : Reads (intText n) (intToks n) := by
  unfold intText intToks
  split
  · exact Reads.tok (t := .op .minus) rfl (.nat _)
  · exact .nat _

theorem alpha_facts {c : Char} (h : c.isAlpha = true ∨ c = '_') : c ≠ ' ' ∧ isDig c = false := by
  have h1 : 65 ≤ c.toNat := by
    rcases h with h | rfl
    · simp only [Char.isAlpha, Char.isUpper, Char.isLower, Bool.or_eq_true, Bool.and_eq_true, decide_eq_true_eq] at h
      have : c.toNat = c.val.toNat := rfl
      rcases h with h | h
      · have := UInt32.le_iff_toNat_le.1 h.1; simp at this; omega
      · have := UInt32.le_iff_toNat_le.1 h.1; simp at this; omega
    · decide
  constructor
  · rintro rfl; revert h1; decide
  · simp only [isDig, Bool.and_eq_false_iff, decide_eq_false_iff_not]
    right
    intro h2
    have : c.toNat ≤ '9'.toNat := h2
    have : '9'.toNat = 57 := rfl
    omega

theorem isWord_step {c : Char} (h : isWord c = true) : (isDig c || c.isAlpha || c = '_') = true := by
  simp only [isWord, Char.isAlphanum, Bool.or_eq_true, beq_iff_eq, decide_eq_true_eq] at h ⊢
  rcases h with (h | h) | h
  · simp [h]
  · left; left
    simp only [Char.isDigit, decide_eq_true_eq, Bool.and_eq_true] at h
    simp only [isDig, Bool.and_eq_true, decide_eq_true_eq]
    exact h
  · simp [h]

theorem lex_name_go (w : List Char) (hw : w.all isWord = true) (s cs : List Char) : lexGo (w ++ cs) (.name s) = lexGo cs (.name (w.reverse ++ s)) := by
  induction w generalizing s with
  | nil => rfl
  | cons c w ih =>
    simp only [List.all_cons, Bool.and_eq_true] at hw
    rw [List.cons_append, lexGo, lexStep, if_pos (isWord_step hw.1)]
    simp only [List.nil_append, Option.map_id', ih hw.2]
    simp

theorem Reads.ident {x : Name} (h : isIdent x = true) : Reads x.toList [.name x] := by
  intro c cs hc
  unfold isIdent at h
  split at h
  · cases h
  · rename_i a w e
    simp only [Bool.and_eq_true, Bool.or_eq_true, beq_iff_eq] at h
    obtain ⟨h1, h2⟩ := alpha_facts h.1
    rw [e, List.cons_append, lexGo, lexStep, lexFresh, if_neg h1, if_neg (by simp [h2]), if_pos (by simpa using h.1)]
    simp only [List.nil_append, Option.map_id', lex_name_go w h.2, (lex_follow hc cs).2]
    have : String.ofList (w.reverse ++ [a]).reverse = x := by simp [← e]
    rw [this]; rfl

/-- Reading some characters. -/
def lexRun : List Char → Pending → Option (List Tok × Pending)
  | [], p => some ([], p)
  | c :: cs, p => match lexStep p c with
    | none => none
    | some (ts, p') => (lexRun cs p').map (fun q => (ts ++ q.1, q.2))

theorem lex_run {s : List Char} {p p' : Pending} {ts : List Tok} (h : lexRun s p = some (ts, p')) (cs : List Char) :
    lexGo (s ++ cs) p = (lexGo cs p').map (ts ++ ·) := by
  induction s generalizing p ts with
  | nil => cases h; simp
  | cons c s ih =>
    rw [lexRun] at h
    rw [List.cons_append, lexGo]
    split at h
    · cases h
    · rename_i us q hq
      rw [hq]
      simp only
      cases hr : lexRun s q with
      | none => rw [hr] at h; cases h
      | some x =>
        rw [hr] at h; cases h
        rw [ih hr, map_app]

/-- An operator between blanks. -/
theorem lex_op (o : OpTok) (cs : List Char) : lexGo (' ' :: o.text ++ ' ' :: cs) .start = (lexGo cs .start).map ([rawTok (.op o)] ++ ·) := by
  have : ' ' :: o.text ++ ' ' :: cs = (' ' :: o.text ++ [' ']) ++ cs := by simp
  rw [this]
  exact lex_run (by cases o <;> rfl) cs

theorem lex_rpar (cs : List Char) : lexGo (')' :: cs) .start = (lexGo cs .start).map ([rawTok .rpar] ++ ·) := lex_tok rfl cs

/-- An operator between two texts. -/
theorem Reads.bin {s s' ts ts'} (h : Reads s ts) (h' : Reads s' ts') (o : OpTok) : Reads (s ++ ' ' :: o.text ++ ' ' :: s') (ts ++ .op o :: ts') := by
  intro c cs hc
  have : s ++ ' ' :: o.text ++ ' ' :: s' ++ c :: cs = s ++ ' ' :: (o.text ++ ' ' :: (s' ++ c :: cs)) := by simp
  rw [this, h _ _ (.inl rfl)]
  have := lex_op o (s' ++ c :: cs)
  rw [List.cons_append] at this
  rw [this, h' c cs hc, map_app, map_app]
  simp

theorem Reads.closed {s ts} (h : Reads s ts) : Reads (s ++ [')']) (ts ++ [.rpar]) := by
  intro c cs hc
  rw [List.append_assoc, List.singleton_append, h _ _ (.inr (.inl rfl)), lex_rpar, map_app]
  simp

theorem Reads.paren {s ts} (h : Reads s ts) : Reads ('(' :: s ++ [')']) (.lpar :: ts ++ [.rpar]) := Reads.tok (t := .lpar) rfl h.closed

theorem Reads.not {s ts} (h : Reads s ts) : Reads ('n' :: 'o' :: 't' :: ' ' :: s) (.op .not :: ts) := by
  intro c cs hc
  have := lex_run (s := ['n', 'o', 't', ' ']) (p := .start) (ts := [.name "not"]) (p' := .start) rfl (s ++ c :: cs)
  simp only [List.cons_append, List.nil_append] at this ⊢
  rw [this, h c cs hc]
  cases lexGo (c :: cs) .start <;> rfl

inductive ReadsAll : List (List Char) → List (List Tok) → Prop
  | nil : ReadsAll [] []
  | cons {s ts ss tss} : Reads s ts → ReadsAll ss tss → ReadsAll (s :: ss) (ts :: tss)

theorem lex_comma (cs : List Char) : lexGo (',' :: ' ' :: cs) .start = (lexGo cs .start).map ([.comma] ++ ·) :=
  lex_run (s := [',', ' ']) rfl cs

theorem Reads.join {s ts ss tss} (h1 : Reads s ts) (h : ReadsAll ss tss) : Reads (joinChars [',', ' '] (s :: ss)) (joinToks (ts :: tss)) := by
  induction h generalizing s ts with
  | nil => exact h1
  | @cons s' ts' ss tss h2 h ih =>
    intro c cs hc
    have e : joinChars [',', ' '] (s :: s' :: ss) = s ++ [',', ' '] ++ joinChars [',', ' '] (s' :: ss) := rfl
    have e2 : joinToks (ts :: ts' :: tss) = ts ++ .comma :: joinToks (ts' :: tss) := rfl
    rw [e, e2, List.append_assoc, List.append_assoc]
    simp only [List.cons_append, List.nil_append]
    rw [h1 _ _ (.inr (.inr (.inl rfl))), lex_comma, ih h2 c cs hc, map_app, map_app]
    simp [rawTok]

theorem lex_sum (k : AccKind) (cs : List Char) : lexGo (k.fn.toList ++ '(' :: '[' :: cs) .start = (lexGo cs .start).map ([.name k.fn, .lpar, .lbrk] ++ ·) := by
  have : k.fn.toList ++ '(' :: '[' :: cs = (k.fn.toList ++ ['(', '[']) ++ cs := by simp
  rw [this]
  exact lex_run (by cases k <;> rfl) cs

theorem Reads.acc {ss tss} (h : ReadsAll ss tss) (k : AccKind) (c : Int) : Reads (accText k c ss) (accToks k c tss) := by
  unfold accText accToks
  have h' : ReadsAll ((if c ≠ k.neutral then [intText c] else []) ++ ss) ((if c ≠ k.neutral then [intToks c] else []) ++ tss) := by
    split
    · exact .cons (.int c) h
    · exact h
  revert h'
  generalize (if c ≠ k.neutral then [intText c] else []) ++ ss = ss'
  generalize (if c ≠ k.neutral then [intToks c] else []) ++ tss = tss'
  intro h'
  cases h' with
  | nil => exact .int _
  | cons h1 h' =>
    cases h' with
    | nil => exact h1
    | cons h2 h' =>
      cases h' with
      | nil => exact h1.bin h2 k.sym
      | cons h3 h' =>
        have hj := h1.join (.cons h2 (.cons h3 h'))
        intro c cs hc
        simp only [List.append_assoc, List.cons_append, List.nil_append] at hj ⊢
        rw [lex_sum, hj _ _ (.inr (.inr (.inr (.inl rfl))))]
        have : lexGo (']' :: ')' :: c :: cs) .start = (lexGo (c :: cs) .start).map ([.rbrk, .rpar] ++ ·) := lex_run (s := [']', ')']) rfl _
        rw [this, map_app, map_app]
        simp [rawTok]

mutual
/-- All names in an expression: variables and parameters. -/
def Expr.allNames : Expr → List Name
  | .const _ => []
  | .var x => [x]
  | .param _ n => [n]
  | .un _ e => e.allNames
  | .bin _ l r => l.allNames ++ r.allNames
  | .acc _ _ es => Expr.allNamesList es
def Expr.allNamesList : List Expr → List Name
  | [] => []
  | e :: es => e.allNames ++ Expr.allNamesList es
end

mutual
theorem reads_str (e : Expr) (h : ∀ x ∈ e.allNames, isIdent x = true) : Reads e.strText e.strToks := by
  match e with
  | .const v => exact .int v
  | .var x => exact .ident (h x (by simp [Expr.allNames]))
  | .param _ x => exact .ident (h x (by simp [Expr.allNames]))
  | .un .neg e => exact Reads.tok (t := .op .minus) rfl (reads_str e h).paren
  | .un .abs e =>
    intro c cs hc
    have := (reads_str e h).closed c cs hc
    have e1 := lex_run (s := ['a', 'b', 's', '(']) (p := .start) (ts := [.name "abs", .lpar]) (p' := .start) rfl (e.strText ++ [')'] ++ c :: cs)
    simp only [Expr.strText, Expr.strToks, List.cons_append, List.nil_append, List.append_assoc] at this e1 ⊢
    rw [e1, this]
    cases lexGo (c :: cs) .start <;> simp [rawTok]
  | .un .not e => exact Reads.tok (t := .op .caret) rfl (reads_str e h)
  | .bin o l r =>
    simp only [Expr.allNames, List.mem_append] at h
    have := ((reads_str l (fun x hx => h x (.inl hx))).bin (reads_str r (fun x hx => h x (.inr hx))) o.sym).paren
    simpa [Expr.strText, Expr.strToks] using this
  | .acc k c es => exact Reads.acc (reads_strs es h) k c
theorem reads_strs (es : List Expr) (h : ∀ x ∈ Expr.allNamesList es, isIdent x = true) : ReadsAll (Expr.strTextList es) (Expr.strToksList es) := by
  match es with
  | [] => exact .nil
  | e :: es =>
    simp only [Expr.allNamesList, List.mem_append] at h
    exact .cons (reads_str e (fun x hx => h x (.inl hx))) (reads_strs es (fun x hx => h x (.inr hx)))
end

mutual
theorem reads_py (ρ : Store) (e : Expr) (h : ∀ x ∈ e.allNames, isIdent x = true) : Reads (e.pyText ρ) (e.pyToks ρ) := by
  match e with
  | .const v => exact .int v
  | .var x => exact .ident (h x (by simp [Expr.allNames]))
  | .param i _ => exact .int (ρ i)
  | .un .neg e => exact reads_str (.un .neg e) h
  | .un .abs e => exact reads_str (.un .abs e) h
  | .un .not e => exact (reads_py ρ e h).not
  | .bin o l r =>
    simp only [Expr.allNames, List.mem_append] at h
    have := (reads_py ρ l (fun x hx => h x (.inl hx))).bin (reads_py ρ r (fun x hx => h x (.inr hx))) o.pySym
    by_cases ho : o = .or
    · subst ho
      simpa [Expr.pyText, Expr.pyToks, BOp.pySym, OpTok.text] using this
    · have := this.paren
      cases o <;> first | exact absurd rfl ho | simpa [Expr.pyText, Expr.pyToks] using this
  | .acc k c es => exact Reads.acc (reads_pys ρ es h) k c
theorem reads_pys (ρ : Store) (es : List Expr) (h : ∀ x ∈ Expr.allNamesList es, isIdent x = true) : ReadsAll (Expr.pyTextList ρ es) (Expr.pyToksList ρ es) := by
  match es with
  | [] => exact .nil
  | e :: es =>
    simp only [Expr.allNamesList, List.mem_append] at h
    exact .cons (reads_py ρ e (fun x hx => h x (.inl hx))) (reads_pys ρ es (fun x hx => h x (.inr hx)))
end

end Satisfy
