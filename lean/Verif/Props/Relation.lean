import Verif.Props.Cryptarithm
import Verif.SpecRelation
/-!
# Cryptarithms with other comparisons: C77

`ord` is the iteration order of the set of letters.
-/

namespace Satisfy
open Satisfy

/-- The token of a comparison. -/
def CRel.tok : CRel → OpTok
  | .eq => .eq | .ne => .ne | .lt => .lt | .le => .le | .gt => .gt | .ge => .ge

/-- The comparison of the model. -/
def CRel.cmp : CRel → Cmp
  | .eq => .eq | .ne => .ne | .lt => .lt | .le => .le | .gt => .gt | .ge => .ge

theorem CRel.holds_iff (r : CRel) (m n : Int) : r.cmp.holds m n = true ↔ r.Holds m n := by
  cases r <;> simp [CRel.cmp, Cmp.holds, CRel.Holds]

theorem CRel.tok_cmp (r : CRel) : r.tok.cmp? = some r.cmp := by cases r <;> rfl

theorem CRel.tok_level (r : CRel) : r.tok.level = some 3 := by cases r <;> rfl

theorem CRel.text_upper (r : CRel) : r.text.map Char.toUpper = r.text := by cases r <;> decide

theorem CRel.text_noWord (r : CRel) : ∀ c ∈ r.text, isWordChar c = false := by cases r <;> decide

theorem CRel.text_head (r : CRel) : ∃ c cs, r.text = c :: cs := by cases r <;> exact ⟨_, _, rfl⟩

end Satisfy

namespace Satisfy.Props
open Satisfy

/-! ## Texts -/

theorem expand_text {q : List Char} (hq : ∀ c ∈ q, isWordChar c = false) (r : List Char) :
    expandGo (q ++ r) [] = q ++ expandGo r [] ∧ wordsOf (q ++ r) [] = wordsOf r [] := by
  induction q with
  | nil => exact ⟨rfl, rfl⟩
  | cons c q ih =>
    obtain ⟨h1, h2⟩ := ih (fun d hd => hq d (by simp [hd]))
    rw [List.cons_append, (expand_cons (hq c (by simp)) _).1, (expand_cons (hq c (by simp)) _).2, h1, h2]
    exact ⟨rfl, rfl⟩

/-- A comparison is one token, whatever comes after it in the texts at hand. -/
theorem lex_rel (q : CRel) {x : List Char} (hx : ∃ c cs, x = c :: cs ∧ (c = '(' ∨ c = '-' ∨ c = ' ')) :
    lexGo (q.text ++ x) .start = (lexGo x .start).map (.op q.tok :: ·) := by
  obtain ⟨c, cs, rfl, hc⟩ := hx
  cases q with
  | eq => exact lex_eqeq _
  | ne =>
    show lexGo ('!' :: '=' :: c :: cs) .start = _
    generalize c :: cs = x
    rw [lexGo, show lexStep .start '!' = some ([], .op '!') from rfl]
    simp only [lexGo, show lexStep (.op '!') '=' = some ([.op .ne], .start) from rfl]
    cases lexGo x .start <;> rfl
  | le =>
    show lexGo ('<' :: '=' :: c :: cs) .start = _
    generalize c :: cs = x
    rw [lexGo, show lexStep .start '<' = some ([], .op '<') from rfl]
    simp only [lexGo, show lexStep (.op '<') '=' = some ([.op .le], .start) from rfl]
    cases lexGo x .start <;> rfl
  | ge =>
    show lexGo ('>' :: '=' :: c :: cs) .start = _
    generalize c :: cs = x
    rw [lexGo, show lexStep .start '>' = some ([], .op '>') from rfl]
    simp only [lexGo, show lexStep (.op '>') '=' = some ([.op .ge], .start) from rfl]
    cases lexGo x .start <;> rfl
  | lt =>
    show lexGo ('<' :: c :: cs) .start = _
    rw [lexGo, show lexStep .start '<' = some ([], .op '<') from rfl]
    rcases hc with rfl | rfl | rfl
    · simp only [lexGo, show lexStep (.op '<') '(' = some ([.op .lt, .lpar], .start) from rfl, show lexStep .start '(' = some ([.lpar], .start) from rfl]
      cases lexGo cs .start <;> rfl
    · simp only [lexGo, show lexStep (.op '<') '-' = some ([.op .lt, .op .minus], .start) from rfl, show lexStep .start '-' = some ([.op .minus], .start) from rfl]
      cases lexGo cs .start <;> rfl
    · simp only [lexGo, show lexStep (.op '<') ' ' = some ([.op .lt], .start) from rfl, show lexStep .start ' ' = some ([], .start) from rfl]
      cases lexGo cs .start <;> rfl
  | gt =>
    show lexGo ('>' :: c :: cs) .start = _
    rw [lexGo, show lexStep .start '>' = some ([], .op '>') from rfl]
    rcases hc with rfl | rfl | rfl
    · simp only [lexGo, show lexStep (.op '>') '(' = some ([.op .gt, .lpar], .start) from rfl, show lexStep .start '(' = some ([.lpar], .start) from rfl]
      cases lexGo cs .start <;> rfl
    · simp only [lexGo, show lexStep (.op '>') '-' = some ([.op .gt, .op .minus], .start) from rfl, show lexStep .start '-' = some ([.op .minus], .start) from rfl]
      cases lexGo cs .start <;> rfl
    · simp only [lexGo, show lexStep (.op '>') ' ' = some ([.op .gt], .start) from rfl, show lexStep .start ' ' = some ([], .start) from rfl]
      cases lexGo cs .start <;> rfl

/-! ## Parsing -/

/-- The tokens of `< p1 <= p2 …`. -/
def relToks : List (CRel × List Tok × Ast) → List Tok
  | [] => []
  | p :: ps => .op p.1.tok :: p.2.1 ++ relToks ps

/-- What the parser makes of them, after `a`, the last operand of the chain `acc`. -/
def relAst (acc : Option Ast) (a : Ast) : List (CRel × List Tok × Ast) → Ast
  | [] => acc.getD a
  | p :: ps => relAst (some (match acc with | none => .cmp p.1.tok a p.2.2 | some c => .and c (.cmp p.1.tok a p.2.2))) p.2.2 ps

theorem relToks_len (ps : List (CRel × List Tok × Ast)) : ps.length ≤ (relToks ps).length := by
  induction ps with
  | nil => simp
  | cons q qs ih => simp [relToks]; omega

theorem relToks_stop {r : List Tok} (hs : stopB 0 r = true) (ps : List (CRel × List Tok × Ast)) : stopB 4 (relToks ps ++ r) = true := by
  cases ps with
  | nil => exact stopB_mono (Nat.zero_le 4) hs
  | cons q qs => simp [relToks, stopB, q.1.tok_level]

theorem pChain_rels (ps : List (CRel × List Tok × Ast)) (hp : ∀ p ∈ ps, ∃ L, 4 ≤ L ∧ Phrase p.2.1 L p.2.2) (acc : Option Ast) (a : Ast)
    (r : List Tok) (hs : stopB 0 r = true) (f : Nat) (hf : 14 * (relToks ps).length < f + 12 * ps.length) :
    pChain f acc a (relToks ps ++ r) = some (relAst acc a ps, r) := by
  induction ps generalizing acc a f with
  | nil =>
    obtain ⟨f, rfl⟩ : ∃ g, f = g + 1 := ⟨f - 1, by simp at hf; omega⟩
    exact pChain_stop (stopB_mono (Nat.zero_le 3) hs)
  | cons p ps ih =>
    have hlen := relToks_len ps
    obtain ⟨f, rfl⟩ : ∃ g, f = g + 1 := ⟨f - 1, by simp [relToks] at hf; omega⟩
    obtain ⟨L, hL, ph⟩ := hp p (by simp)
    simp only [relToks, List.cons_append, List.length_cons, List.length_append, List.append_assoc] at hf ⊢
    rw [pChain_op, if_pos p.1.tok_level, ph.at_level (l := 4) hL (relToks_stop hs ps) f (by omega)]
    exact ih (fun q hq => hp q (by simp [hq])) _ _ f (by omega)

theorem rels_phrase {t : List Tok} {a : Ast} {L : Nat} (h : Phrase t L a) (hL : 4 ≤ L) (ps : List (CRel × List Tok × Ast))
    (hp : ∀ p ∈ ps, ∃ L, 4 ≤ L ∧ Phrase p.2.1 L p.2.2) (hne : ps ≠ []) : Phrase0 (t ++ relToks ps) (relAst none a ps) := by
  have h1 := h.pos
  have hk := List.length_pos_iff.2 hne
  have hlen := relToks_len ps
  refine ⟨by simp; omega, fun r hs => ?_⟩
  have base : Parses (14 * (t.length + (relToks ps).length) - 10) 3 (t ++ relToks ps ++ r) (relAst none a ps) r := by
    intro f hf
    obtain ⟨f, rfl⟩ : ∃ g, f = g + 1 := ⟨f - 1, by omega⟩
    rw [List.append_assoc, pE_3, h.at_level (l := 4) hL (relToks_stop hs ps) f (by omega)]
    exact pChain_rels ps hp none a r hs f (by omega)
  refine (downTo (L := 3) (l := 0) (by omega) (by omega) (by omega) base hs ?_ ?_).mono (by simp; omega)
  · intro _ _; exact headNot_append (headNot_append (h.h2 (by omega)) h1) (by simp; omega)
  · intro _ h; omega

/-! ## Running it -/

theorem arg_cmp (env : List (Name × Expr)) (q : CRel) {a b : Ast} {x y : Obj} (ha : a.run env = .ok x) (hb : b.run env = .ok y) :
    Ast.arg env (.cmp q.tok a b) = .ok (cmpArg q.cmp x y) ∧ Ast.run env (.cmp q.tok a b) = .ok (Obj.cmp q.cmp x y) := by
  have hrun : Ast.run env (.cmp q.tok a b) = .ok (Obj.cmp q.cmp x y) := by
    simp only [Ast.run, ha, hb, q.tok_cmp]
    rfl
  refine ⟨?_, hrun⟩
  unfold Ast.arg
  rw [hrun]
  show Except.ok ((Obj.cmp q.cmp x y).asArg (Ast.isBool env (.cmp q.tok a b))) = _
  congr 1
  cases x with
  | int m =>
    cases y with
    | int n =>
      simp only [Ast.isBool, ha, hb, Obj.cmp, Obj.asArg, cmpArg, if_true]
      cases Cmp.holds q.cmp m n <;> simp [ofBool, truthy]
    | expr e =>
      simp only [Ast.isBool, ha, hb, cmpArg]
      cases Obj.cmp q.cmp (.int m) (.expr e) <;> simp [Obj.asArg]
  | expr e =>
    simp only [Ast.isBool, ha, hb, cmpArg]
    cases Obj.cmp q.cmp (.expr e) y <;> simp [Obj.asArg]

/-- What Python finds when it asks for the truth of a comparison. -/
theorem rel_truth {f g : Folded} {o o' : Obj} (q : CRel) (h : FoldsTo f o) (h' : FoldsTo g o') : (Obj.cmp q.cmp o o').truth = true ↔ q.Passes f g := by
  have key : ∀ (c : Cmp) (e : Expr) (o : Obj), NotConsts (.expr e) o → (e.pyCmp c o).truth = true := by
    intro c e o hn
    unfold Expr.pyCmp
    split
    · exact absurd ⟨⟨_, rfl⟩, ⟨_, rfl⟩⟩ hn
    · rfl
  have gen : ∀ {a b : Obj}, NotConsts a b → ((∃ e, a = .expr e) ∨ ∃ e, b = .expr e) → (Obj.cmp q.cmp a b).truth = true := by
    intro a b hn hx
    unfold Obj.cmp
    split
    · rcases hx with ⟨_, hx⟩ | ⟨_, hx⟩ <;> cases hx
    · exact key _ _ _ (.right (by simp))
    · exact key _ _ _ (.left (by simp))
    · exact key _ _ _ hn
  have hform : ∀ {o : Obj}, FoldsTo .formula o → (∃ e, o = .expr e) ∧ ∀ m, o ≠ .expr (.const m) := by
    rintro o ⟨e, rfl, he⟩
    exact ⟨⟨e, rfl⟩, fun m hm => by cases hm; exact he.not_const m rfl⟩
  have hbool : ∀ b : Bool, truthy (ofBool b) = true ↔ b = true := by decide
  cases f with
  | formula => exact iff_of_true (gen (.left (hform h).2) (.inl (hform h).1)) trivial
  | number m => cases g with
    | formula => exact iff_of_true (gen (.right (hform h').2) (.inr (hform h').1)) trivial
    | number n => cases h; cases h'; exact (hbool _).trans (q.holds_iff m n)
    | constant n => cases h; cases h'; exact iff_of_true (gen (.left (by simp)) (.inr ⟨_, rfl⟩)) trivial
  | constant m => cases g with
    | formula => exact iff_of_true (gen (.right (hform h').2) (.inr (hform h').1)) trivial
    | number n => cases h; cases h'; exact iff_of_true (gen (.right (by simp)) (.inl ⟨_, rfl⟩)) trivial
    | constant n => cases h; cases h'; exact (hbool _).trans (q.holds_iff m n)

/-- After a comparison that is false the others are not looked at. -/
theorem rels_false {env : List (Name × Expr)} (ps : List (CRel × List Tok × Ast)) {c : Ast} (a : Ast) {x : Obj} (h : c.run env = .ok x)
    (ht : x.truth = false) : Ast.arg env (relAst (some c) a ps) = Ast.arg env c := by
  induction ps generalizing c a with
  | nil => rfl
  | cons p ps ih =>
    have h1 : Ast.run env (.and c (.cmp p.1.tok a p.2.2)) = .ok x := by
      simp only [Ast.run, h]
      show (if x.truth then _ else _) = _
      rw [ht]
      rfl
    rw [relAst]
    refine (ih _ h1).trans ?_
    simp only [Ast.arg, h1, h, Ast.isBool, ht]
    rfl

/-- The chain is worth its decisive comparison. -/
theorem rels_arg {env : List (Name × Expr)} {xs : List Name} {t : CTree} {rest : List (CRel × CTree)} {l : CTree} {q : CRel} {r : CTree}
    (hdec : Decisive t rest l q r) (acc : Option Ast) (p : List Tok × Ast) (ps : List (CRel × List Tok × Ast))
    (hacc : ∀ c, acc = some c → ∃ x, c.run env = .ok x ∧ x.truth = true) (hp : RunsTo env xs t p)
    (hrun : List.Forall₂ (fun u v => u.1 = v.1 ∧ RunsTo env xs u.2 v.2) rest ps) :
    ∃ o o', Ast.arg env (relAst acc p.2 ps) = .ok (cmpArg q.cmp o o') ∧ FoldsTo l.folded o ∧ FoldsTo r.folded o' ∧
      Den xs o (fun s => l.value (fun c => s (letterName c))) ∧ Den xs o' (fun s => r.value (fun c => s (letterName c))) := by
  induction hdec generalizing acc p ps with
  | @last t q u =>
    cases hrun with
    | cons h2 h3 =>
      cases h3
      rename_i v
      obtain ⟨hq, h2⟩ := h2
      obtain ⟨o, r1, d1, f1⟩ := hp
      obtain ⟨o', r2, d2, f2⟩ := h2
      refine ⟨o, o', ?_, f1, f2, d1.den, d2.den⟩
      have hc := (arg_cmp env q r1 r2).1
      cases acc with
      | none => rw [← hc, relAst, relAst]; exact congrArg (fun z => Ast.arg env (.cmp (CRel.tok z) _ _)) hq.symm
      | some c =>
        obtain ⟨x, hx, ht⟩ := hacc c rfl
        have := (arg_and (b := .cmp q.tok p.2 v.2.2) hx ht).1
        rw [← hc, ← this, relAst, relAst]
        exact congrArg (fun z => Ast.arg env (.and c (.cmp (CRel.tok z) _ _))) hq.symm
  | @stop t q u rest hn =>
    cases hrun with
    | cons h2 h3 =>
      rename_i v vs
      obtain ⟨hq, h2⟩ := h2
      obtain ⟨o, r1, d1, f1⟩ := hp
      obtain ⟨o', r2, d2, f2⟩ := h2
      refine ⟨o, o', ?_, f1, f2, d1.den, d2.den⟩
      have hc := arg_cmp env q r1 r2
      have htr : (Obj.cmp q.cmp o o').truth = false := by
        rw [← Bool.not_eq_true]
        exact fun h => hn ((rel_truth q f1 f2).1 h)
      obtain ⟨vq, vt⟩ := v
      cases hq
      cases acc with
      | none => rw [relAst]; exact (rels_false _ _ hc.2 htr).trans hc.1
      | some c =>
        obtain ⟨x, hx, ht⟩ := hacc c rfl
        have ha := arg_and (b := .cmp q.tok p.2 vt.2) hx ht
        rw [relAst]
        exact (rels_false _ _ (ha.2.trans hc.2) htr).trans (ha.1.trans hc.1)
  | @next t q u rest l q' r hpass hdec ih =>
    cases hrun with
    | cons h2 h3 =>
      rename_i v vs
      obtain ⟨hq, h2⟩ := h2
      have h2' := h2
      obtain ⟨o, r1, d1, f1⟩ := hp
      obtain ⟨o', r2, d2, f2⟩ := h2
      have hc := arg_cmp env q r1 r2
      obtain ⟨vq, vt⟩ := v
      cases hq
      cases acc with
      | none => exact ih (some (.cmp q.tok p.2 vt.2)) vt vs (by intro c hc'; cases hc'; exact ⟨_, hc.2, (rel_truth q f1 f2).2 hpass⟩) h2' h3
      | some c =>
        obtain ⟨x, hx, ht⟩ := hacc c rfl
        exact ih (some (.and c (.cmp q.tok p.2 vt.2))) vt vs
          (by intro c' hc'; cases hc'; exact ⟨_, (arg_and hx ht).2.trans hc.2, (rel_truth q f1 f2).2 hpass⟩) h2' h3

/-- What the text of a chain becomes. -/
theorem links_done {source : List Char} {t : CTree} {rest : List (CRel × CTree)} (h : CLinks source t rest) : ∃ x p ps,
    expandGo (source.map Char.toUpper) [] = x ∧ wordsOf (source.map Char.toUpper) [] = linkWords t rest ∧
      (∀ w ∈ linkWords t rest, ∀ c ∈ w, isWordChar c = true) ∧ (∃ c cs, x = c :: cs ∧ (c = '(' ∨ c = '-' ∨ c = ' ')) ∧
      lexGo x .start = some (p.1 ++ relToks ps) ∧ (∃ L, 4 ≤ L ∧ Phrase p.1 L p.2) ∧ (∀ q ∈ ps, ∃ L, 4 ≤ L ∧ Phrase q.2.1 L q.2.2) ∧
      ∀ env xs, (∀ w ∈ linkWords t rest, ∀ c ∈ w, isDig c = false → LetterVar env xs c) →
        RunsTo env xs t p ∧ List.Forall₂ (fun u v => u.1 = v.1 ∧ RunsTo env xs u.2 v.2) rest ps := by
  have hnil : NoWord [] := by intro c hc; cases hc
  induction h with
  | @last s t hs =>
    obtain ⟨x, toks, ast, hd⟩ := text_done hs
    have e1 := hd.expand [] hnil
    have e2 := hd.words [] hnil
    have e3 := hd.lex []
    simp only [List.append_nil, expandGo, flushWord, if_true] at e1
    simp only [List.append_nil, wordsOf, if_true] at e2
    simp only [List.append_nil] at e3
    obtain ⟨L, hL, hp⟩ := hd.phrase
    refine ⟨x, (toks, ast), [], e1, by simpa [linkWords] using e2, ?_, hd.head,
      by simpa [relToks, show lexGo [] .start = some [] from rfl] using e3, ⟨L, by omega, hp⟩, by simp, ?_⟩
    · intro w hw; exact (hd.alnum w (by simpa [linkWords] using hw)).2
    · intro env xs henv
      exact ⟨hd.run env xs (fun w hw => henv w (by simpa [linkWords] using hw)), .nil⟩
  | @more s t q source u rest hs _ ih =>
    obtain ⟨x, toks, ast, hd⟩ := text_done hs
    obtain ⟨x', p, ps, e1, e2, e3, e7, e4, e5, e5', e6⟩ := ih
    have hup : (s ++ q.text ++ source).map Char.toUpper = s.map Char.toUpper ++ (q.text ++ source.map Char.toUpper) := by
      rw [List.map_append, List.map_append, q.text_upper, List.append_assoc]
    have hno : NoWord (q.text ++ source.map Char.toUpper) := by
      obtain ⟨c, cs, hc⟩ := q.text_head
      rw [hc, List.cons_append]
      exact noWord_cons (q.text_noWord c (by rw [hc]; simp)) _
    have hw' : linkWords t ((q, u) :: rest) = t.words ++ linkWords u rest := rfl
    obtain ⟨L, hL, hp⟩ := hd.phrase
    refine ⟨x ++ (q.text ++ x'), (toks, ast), (q, p) :: ps, ?_, ?_, ?_, ?_, ?_, ⟨L, by omega, hp⟩, ?_, ?_⟩
    · rw [hup, hd.expand _ hno, (expand_text q.text_noWord _).1, e1]
    · rw [hup, hd.words _ hno, (expand_text q.text_noWord _).2, e2]; rfl
    · intro w hw
      rw [hw'] at hw
      rcases List.mem_append.1 hw with hw | hw
      · exact (hd.alnum w hw).2
      · exact e3 w hw
    · obtain ⟨c, cs, hx, hc⟩ := hd.head
      exact ⟨c, _, by rw [hx, List.cons_append], hc⟩
    · rw [hd.lex, lex_rel q e7, e4]; simp [relToks]
    · intro v hv
      rcases List.mem_cons.1 hv with rfl | hv
      · exact e5
      · exact e5' v hv
    · intro env xs henv
      rw [hw'] at henv
      obtain ⟨g1, g2⟩ := e6 env xs (fun w hw => henv w (List.mem_append_right _ hw))
      exact ⟨hd.run env xs (fun w hw => henv w (List.mem_append_left _ hw)), .cons ⟨rfl, g1⟩ g2⟩

/-- The decisive comparison is about to be added. -/
theorem links_front (h : Heap) (ord : List Char → List Char) (ho : ∀ l, (ord l).Perm l) {source : List Char} {t : CTree}
    {rest : List (CRel × CTree)} (hsrc : CLinks source t rest) {l : CTree} {q : CRel} {r : CTree} (hdec : Decisive t rest l q r) (avoid : Bool) :
    ∃ w letters nonZero o o', cryptBuild ord source avoid ⟨.empty, h⟩ = ((do addConstraint (cmpArg q.cmp o o'); return letters) : Api (List Char)) w ∧
      letters.Nodup ∧ (∀ c, c ∈ letters ↔ ∃ w ∈ linkWords t rest, c ∈ w ∧ ¬ IsDigit c) ∧
      (∀ c, c ∈ nonZero ↔ ∃ w ∈ linkWords t rest, w.head? = some c ∧ ¬ IsDigit c) ∧ (∀ c ∈ letters, isCap c = true) ∧
      FoldsTo l.folded o ∧ FoldsTo r.folded o' ∧
      Den (letters.map letterName) o (fun s => l.value (fun c => s (letterName c))) ∧
      Den (letters.map letterName) o' (fun s => r.value (fun c => s (letterName c))) ∧
      Built h.params w (tabVars letters letterName (letterDom nonZero)) (fun σ =>
        ∀ c ∈ letters, ∀ c' ∈ letters, c ≠ c' → val σ (letterName c) ≠ val σ (letterName c')) := by
  obtain ⟨x, p, ps, e1, e2, e3, -, e4, ⟨L, hL, hp⟩, e5, e6⟩ := links_done hsrc
  obtain ⟨w, letters, nz, arg, e, h1, h2, h3, hcap, ⟨o, o', rfl, f1, f2, d1, d2⟩, hb⟩ := crypt_words h ord ho e1 e2 e3
    (Q := fun xs arg => ∃ o o', arg = cmpArg q.cmp o o' ∧ FoldsTo l.folded o ∧ FoldsTo r.folded o' ∧
      Den xs o (fun s => l.value (fun c => s (letterName c))) ∧ Den xs o' (fun s => r.value (fun c => s (letterName c)))) (by
      intro env xs henv
      obtain ⟨g1, g2⟩ := e6 env xs henv
      obtain ⟨o, o', ha, f1, f2, d1, d2⟩ := rels_arg hdec none p ps (by simp) g1 g2
      refine ⟨_, ?_, o, o', rfl, f1, f2, d1, d2⟩
      have hne' : ps ≠ [] := by
        rintro rfl
        cases g2
        cases hdec
      have := parseBody_ok (rels_phrase hp hL ps e5 hne')
      simp only [pyEvalArg, e4, this]
      exact ha) avoid
  exact ⟨w, letters, nz, o, o', e, h1, h2, h3, hcap, f1, f2, d1, d2, hb⟩

/-- From the model to the results. -/
theorem links_puzzle {sf : Prop} {ρ : Store} {w : World} {letters nz : List Char} {ws : List (List Char)} {P : (Char → Int) → Prop} (a : SolveArgs) [FitsArgs a sf]
    (hs : ∀ l, (a.shuffle l).Perm l) (ha : a.adds = []) (hnd : letters.Nodup) (h2 : ∀ c, c ∈ letters ↔ ∃ w ∈ ws, c ∈ w ∧ ¬ IsDigit c)
    (h3 : ∀ c, c ∈ nz ↔ ∃ w ∈ ws, w.head? = some c ∧ ¬ IsDigit c) (hP : ∀ d d' : Char → Int, (∀ w ∈ ws, ∀ c ∈ w, ¬ IsDigit c → d c = d' c) → P d → P d')
    (hne : ∃ c, c ∈ letters)
    (hb : BuiltC sf ρ w (tabVars letters letterName (letterDom nz)) (fun σ =>
        (∀ c ∈ letters, ∀ c' ∈ letters, c ≠ c' → val σ (letterName c) ≠ val σ (letterName c')) ∧
        P (fun c => val σ (letterName c)))) :
    PuzzleRun a (puzzleRun a w (cryptDecode letters)) (SolvesFor ws letters P) := by
  have hdec : ∀ τ, Exact (tabVars letters letterName (letterDom nz)) τ →
      cryptDecode letters τ = .ok (letters.map (fun c => (c, val τ (letterName c)))) := by
    intro τ hτ
    refine Res.each_ok (g := fun c => (c, val τ (letterName c))) (fun c hc => ?_)
    obtain ⟨v, _, hv⟩ := hτ.val hc
    rw [Subst.at_ok hv, val_eq hv]
    rfl
  have hnames : (letters.map letterName).Nodup := List.Nodup.map (fun _ _ h => letterName_inj h) hnd
  have hmemL : ∀ w ∈ ws, ∀ c ∈ w, ¬ IsDigit c → c ∈ letters := fun w hw c hc hd => (h2 c).2 ⟨w, hw, hc, hd⟩
  refine hb.puzzle hs ha ?_ ?_ ?_ ?_ ?_
  · obtain ⟨c, this⟩ := hne
    cases letters with
    | nil => simp at this
    | cons c cs => simp [tabVars]
  · intro τ hτ ⟨hd, he⟩
    refine ⟨_, hdec τ hτ, ?_, ?_, ?_, ?_, ?_⟩
    · simp [Function.comp_def]
    · intro p hp
      obtain ⟨c, hc, rfl⟩ := List.mem_map.1 hp
      obtain ⟨v, hv, hg⟩ := hτ.val hc
      rw [val_eq hg]
      exact (mem_letterDom.1 hv).1
    · intro p hp q hq hpq
      obtain ⟨c, hc, rfl⟩ := List.mem_map.1 hp
      obtain ⟨c', hc', rfl⟩ := List.mem_map.1 hq
      exact hd c hc c' hc' hpq
    · intro w hw c hc hdig hmem
      obtain ⟨c', hc', he'⟩ := List.mem_map.1 hmem
      simp only [Prod.mk.injEq] at he'
      obtain ⟨rfl, h0⟩ := he'
      obtain ⟨v, hv, hg⟩ := hτ.val hc'
      rw [val_eq hg] at h0
      exact (mem_letterDom.1 hv).2 ((h3 c').2 ⟨w, hw, hc, hdig⟩) h0
    · intro d hd'
      have key : ∀ w ∈ ws, ∀ c ∈ w, ¬ IsDigit c → d c = val τ (letterName c) := by
        intro w hw c hc hdig
        exact hd' (c, val τ (letterName c)) (List.mem_map_of_mem (hmemL w hw c hc hdig))
      exact hP _ _ (fun w hw c hc hdig => (key w hw c hc hdig).symm) he
  · intro L hL
    have hfst := hL.letters
    have hndL : (L.map Prod.fst).Nodup := by rw [hfst]; exact hnd
    have hget : ∀ p ∈ L, aget L p.1 = some p.2 := by
      clear hfst hL
      induction L with
      | nil => simp
      | cons q L ih =>
        intro p hp
        rw [List.map_cons, List.nodup_cons] at hndL
        rw [aget]
        rcases List.mem_cons.1 hp with rfl | hp
        · simp
        · rw [if_neg, ih hndL.2 p hp]
          rintro e
          exact hndL.1 (e ▸ List.mem_map_of_mem hp)
    have hLmap : L = letters.map (fun c => (c, (aget L c).getD 0)) := by
      rw [← hfst, List.map_map]
      conv => lhs; rw [← List.map_id L]
      refine List.map_congr_left (fun p hp => ?_)
      simp [hget p hp]
    have hval : ∀ c ∈ letters, val (tab letters letterName (fun c => (aget L c).getD 0)) (letterName c) = (aget L c).getD 0 :=
      fun c hc => val_eq (tab_get hnames hc)
    have hmem : ∀ c ∈ letters, (c, (aget L c).getD 0) ∈ L := by
      intro c hc
      rw [← hfst] at hc
      obtain ⟨p, hp, rfl⟩ := List.mem_map.1 hc
      rw [hget p hp]
      exact hp
    have hex : Exact (tabVars letters letterName (letterDom nz)) (tab letters letterName (fun c => (aget L c).getD 0)) := by
      refine tab_exact hnames (fun c hc => mem_letterDom.2 ⟨hL.digits _ (hmem c hc), fun hz h0 => ?_⟩)
      obtain ⟨w, hw, hcw, hdig⟩ := (h3 c).1 hz
      exact hL.leading w hw c hcw hdig (h0 ▸ hmem c hc)
    refine ⟨_, hex, ⟨?_, ?_⟩, ?_⟩
    · intro c hc c' hc' hne
      rw [hval c hc, hval c' hc']
      exact hL.different _ (hmem c hc) _ (hmem c' hc') hne
    · refine hL.holds _ (fun p hp => ?_)
      have : p.1 ∈ letters := by rw [← hfst]; exact List.mem_map_of_mem hp
      rw [hval _ this, hget p hp]; rfl
    · rw [hdec _ hex]
      congr 1
      rw [List.map_congr_left (fun c hc => by rw [hval c hc]), ← hLmap]
  · intro τ τ' hτ hτ' _ _ he
    rw [hdec τ hτ, hdec τ' hτ'] at he
    have he := Except.ok.inj he
    refine hτ.same hτ' (fun x hx => ?_)
    rw [tabVars_keys] at hx
    obtain ⟨c, hc, rfl⟩ := List.mem_map.1 hx
    obtain ⟨v, _, hv⟩ := hτ.val hc
    obtain ⟨v', _, hv'⟩ := hτ'.val hc
    rw [hv, hv']
    have := List.map_inj_left.1 he c hc
    simp only [Prod.mk.injEq, true_and] at this
    rw [val_eq hv, val_eq hv'] at this
    rw [this]
  · intro τ τ' h
    unfold cryptDecode
    simp only [h.at]

/-! ## The theorems -/

/-- Every chain with a comparison has a decisive one. -/
theorem decisive_total (t : CTree) (rest : List (CRel × CTree)) (hne : rest ≠ []) : ∃ l q r, Decisive t rest l q r := by
  induction rest generalizing t with
  | nil => exact absurd rfl hne
  | cons p rest ih =>
    obtain ⟨q, u⟩ := p
    by_cases hp : q.Passes t.folded u.folded
    · cases rest with
      | nil => exact ⟨_, _, _, .last⟩
      | cons p' rest =>
        obtain ⟨l, q', r, h⟩ := ih u (by simp)
        exact ⟨l, q', r, .next hp h⟩
    · exact ⟨_, _, _, .stop hp⟩

/-- … and it is one of its comparisons: if all hold it holds. -/
theorem decisive_holds {t : CTree} {rest : List (CRel × CTree)} {l : CTree} {q : CRel} {r : CTree} (h : Decisive t rest l q r) (d : Char → Int)
    (ha : AllHold d t rest) : q.Holds (l.value d) (r.value d) := by
  induction h with
  | last => exact ha.1
  | stop _ => exact ha.1
  | next _ _ ih => exact ih ha.2

theorem decisive_words {t : CTree} {rest : List (CRel × CTree)} {l : CTree} {q : CRel} {r : CTree} (h : Decisive t rest l q r) :
    (∀ w ∈ l.words, w ∈ linkWords t rest) ∧ ∀ w ∈ r.words, w ∈ linkWords t rest := by
  induction h with
  | last => simp only [linkWords, List.flatMap_cons, List.flatMap_nil, List.append_nil]; exact ⟨fun w hw => List.mem_append_left _ hw, fun w hw => List.mem_append_right _ hw⟩
  | stop _ =>
    simp only [linkWords, List.flatMap_cons]
    exact ⟨fun w hw => List.mem_append_left _ hw, fun w hw => List.mem_append_right _ (List.mem_append_left _ hw)⟩
  | next _ _ ih => exact ⟨fun w hw => List.mem_append_right _ (ih.1 w hw), fun w hw => List.mem_append_right _ (ih.2 w hw)⟩

/-- Unless the decisive comparison is between two constants the constructor succeeds, and the model says: the digits differ, and the decisive
comparison holds. -/
theorem links_built (h : Heap) (ord : List Char → List Char) (ho : ∀ l, (ord l).Perm l) {source : List Char} {t : CTree}
    {rest : List (CRel × CTree)} (hsrc : CLinks source t rest) {l : CTree} {q : CRel} {r : CTree} (hdec : Decisive t rest l q r)
    (hbc : ¬ BothConstant l r) (avoid : Bool) :
    ∃ w letters nonZero, cryptBuild ord source avoid ⟨.empty, h⟩ = (w, .ok letters) ∧ letters.Nodup ∧
      (∀ c, c ∈ letters ↔ ∃ w ∈ linkWords t rest, c ∈ w ∧ ¬ IsDigit c) ∧
      (∀ c, c ∈ nonZero ↔ ∃ w ∈ linkWords t rest, w.head? = some c ∧ ¬ IsDigit c) ∧ (∀ c ∈ letters, isCap c = true) ∧
      Built h.params w (tabVars letters letterName (letterDom nonZero)) (fun σ =>
        (∀ c ∈ letters, ∀ c' ∈ letters, c ≠ c' → val σ (letterName c) ≠ val σ (letterName c')) ∧
        q.Holds (l.value (fun c => val σ (letterName c))) (r.value (fun c => val σ (letterName c)))) := by
  obtain ⟨w, letters, nz, o, o', e, h1, h2, h3, hcap, f1, f2, d1, d2, hb⟩ := links_front h ord ho hsrc hdec avoid
  obtain ⟨w3, e3, b3⟩ := hb.addCmp q.cmp d1 d2 (by intro x hx; rw [tabVars_keys]; exact hx)
    (by intro x hx; obtain ⟨c, hc, rfl⟩ := List.mem_map.1 hx; exact (cap_facts (hcap c hc)).2.2.2.2.1)
    (fun ⟨⟨m, hm⟩, ⟨n, hn⟩⟩ => hbc ⟨f1.constant hm, f2.constant hn⟩)
  refine ⟨w3, letters, nz, ?_, h1, h2, h3, hcap, b3.congr (fun σ hσ => by rw [q.holds_iff])⟩
  rw [e]
  simp only [Api.bind_apply, e3]
  rfl

theorem decisive_congr {t : CTree} {rest : List (CRel × CTree)} {l : CTree} {q : CRel} {r : CTree} (hdec : Decisive t rest l q r) (d d' : Char → Int)
    (hd : ∀ w ∈ linkWords t rest, ∀ c ∈ w, ¬ IsDigit c → d c = d' c) : q.Holds (l.value d) (r.value d) → q.Holds (l.value d') (r.value d') := by
  obtain ⟨g1, g2⟩ := decisive_words hdec
  rw [value_congr l (fun w hw => hd w (g1 w hw)), value_congr r (fun w hw => hd w (g2 w hw))]
  exact fun h => h

/-- C77, as far as it is true: of a chain of comparisons only the decisive one is solved. The results are the digits for the letters of the whole
text (all different, no word beginning with a zero) with `l q r`, each once, whatever the other comparisons say; no assignment for which all
hold is lost. Missing from the full claim: the other comparisons (`C77_refuted`), and chains decided by two constants (`C77_type_error`). -/
theorem C77_partial (h : Heap) (a : SolveArgs) (hs : ∀ l, (a.shuffle l).Perm l) (ha : a.adds = []) (ord : List Char → List Char)
    (ho : ∀ l, (ord l).Perm l) (source : List Char) (t : CTree) (rest : List (CRel × CTree)) (hsrc : CLinks source t rest) (l : CTree) (q : CRel)
    (r : CTree) (hdec : Decisive t rest l q r) (hne : ∃ w ∈ linkWords t rest, ∃ c ∈ w, ¬ IsDigit c) (hbc : ¬ BothConstant l r) (avoid : Bool) :
    ∃ w letters, cryptBuild ord source avoid ⟨.empty, h⟩ = (w, .ok letters) ∧ letters.Nodup ∧
      (∀ c, c ∈ letters ↔ ∃ w ∈ linkWords t rest, c ∈ w ∧ ¬ IsDigit c) ∧
      PuzzleRun a (puzzleRun a w (cryptDecode letters)) (SolvesFor (linkWords t rest) letters (fun d => q.Holds (l.value d) (r.value d))) ∧
      (∀ L, SolvesFor (linkWords t rest) letters (fun d => AllHold d t rest) L →
        SolvesFor (linkWords t rest) letters (fun d => q.Holds (l.value d) (r.value d)) L) := by
  obtain ⟨w, letters, nz, e, h1, h2, h3, hcap, hb⟩ := links_built h ord ho hsrc hdec hbc avoid
  refine ⟨w, letters, e, h1, h2, links_puzzle a hs ha h1 h2 h3 (decisive_congr hdec) ?_ hb, ?_⟩
  · obtain ⟨w, hw, c, hc, hd⟩ := hne
    exact ⟨c, (h2 c).2 ⟨w, hw, hc, hd⟩⟩
  · intro L hL
    exact ⟨hL.letters, hL.digits, hL.different, hL.leading, fun d hd => decisive_holds hdec d (hL.holds d hd)⟩

/-- With one comparison, whichever of the six, the claim is true. -/
theorem C77_single (h : Heap) (a : SolveArgs) (hs : ∀ l, (a.shuffle l).Perm l) (ha : a.adds = []) (ord : List Char → List Char)
    (ho : ∀ l, (ord l).Perm l) (source : List Char) (l : CTree) (q : CRel) (r : CTree) (hsrc : CLinks source l [(q, r)])
    (hne : ∃ c, CLetter l r c) (hbc : ¬ BothConstant l r) (avoid : Bool) :
    ∃ w letters, cryptBuild ord source avoid ⟨.empty, h⟩ = (w, .ok letters) ∧ letters.Nodup ∧ (∀ c, c ∈ letters ↔ CLetter l r c) ∧
      PuzzleRun a (puzzleRun a w (cryptDecode letters)) (SolvesFor (l.words ++ r.words) letters (fun d => q.Holds (l.value d) (r.value d))) := by
  have e : linkWords l [(q, r)] = l.words ++ r.words := by simp [linkWords]
  obtain ⟨w, letters, h1, h2, h3, h4, -⟩ := C77_partial h a hs ha ord ho source l _ hsrc l q r .last
    (by rw [e]; obtain ⟨c, w, hw, hc, hd⟩ := hne; exact ⟨w, hw, c, hc, hd⟩) hbc avoid
  rw [e] at h3 h4
  exact ⟨w, letters, h1, h2, h3, h4⟩

/-- If the decisive comparison is between two constants, though there are letters in them, it is an int, and the constructor raises TypeError. -/
theorem C77_type_error (h : Heap) (ord : List Char → List Char) (ho : ∀ l, (ord l).Perm l) (source : List Char) (t : CTree)
    (rest : List (CRel × CTree)) (hsrc : CLinks source t rest) (l : CTree) (q : CRel) (r : CTree) (hdec : Decisive t rest l q r)
    (hbc : BothConstant l r) (avoid : Bool) : ∃ w, cryptBuild ord source avoid ⟨.empty, h⟩ = (w, .error .typeError) := by
  obtain ⟨w2, letters, nz, o, o', e, -, -, -, -, f1, f2, -⟩ := links_front h ord ho hsrc hdec avoid
  obtain ⟨⟨m, hm⟩, ⟨n, hn⟩⟩ := hbc
  rw [hm] at f1
  rw [hn] at f2
  cases f1
  cases f2
  exact ⟨w2, e⟩

/-- Without letters there are no variables, so nothing is produced, even if all comparisons are true. -/
theorem C77_no_letters (h : Heap) (a : SolveArgs) (hs : ∀ l, (a.shuffle l).Perm l) (ord : List Char → List Char)
    (ho : ∀ l, (ord l).Perm l) (source : List Char) (t : CTree) (rest : List (CRel × CTree)) (hsrc : CLinks source t rest) (hr : rest ≠ [])
    (hne : ∀ w ∈ linkWords t rest, ∀ c ∈ w, IsDigit c) (avoid : Bool) :
    ∃ w, cryptBuild ord source avoid ⟨.empty, h⟩ = (w, .ok []) ∧ ∀ n, (puzzleRun a w (cryptDecode []) n).1 = .ok [] := by
  obtain ⟨l, q, r, hdec⟩ := decisive_total t rest hr
  obtain ⟨w, letters, nz, o, o', e, h1, h2, h3, hcap, f1, f2, d1, d2, hb⟩ := links_front h ord ho hsrc hdec avoid
  have : letters = [] := List.eq_nil_iff_forall_not_mem.2 (fun c hc => by
    obtain ⟨w, hw, hc, hd⟩ := (h2 c).1 hc
    exact hd (hne w hw c hc))
  subst this
  obtain ⟨w3, e3, b3⟩ := hb.addCmp q.cmp d1 d2 (by simp) (by simp)
    (fun ⟨⟨m, hm⟩, _⟩ => by
      obtain ⟨n, hn⟩ := f1.constant hm
      exact constant_letter hn (fun w hw c hc => hne w ((decisive_words hdec).1 w hw) c hc))
  refine ⟨w3, ?_, fun n => puzzle_no_vars hs (by rw [b3.pureKeys]; rfl) _ n⟩
  rw [e]
  simp only [Api.bind_apply, e3]
  rfl

theorem folded_digits {t : CTree} {n : Int} (h : t.folded = .number n) : ∀ w ∈ t.words, ∀ c ∈ w, IsDigit c := by
  have two : ∀ {a b : CTree}, (∀ m, a.folded = .number m → ∀ w ∈ a.words, ∀ c ∈ w, IsDigit c) →
      (∀ m, b.folded = .number m → ∀ w ∈ b.words, ∀ c ∈ w, IsDigit c) → (∃ m k, a.folded = .number m ∧ b.folded = .number k) →
      ∀ w ∈ a.words ++ b.words, ∀ c ∈ w, IsDigit c := by
    rintro a b ha hb ⟨m, k, h1, h2⟩ w hw
    rcases List.mem_append.1 hw with hw | hw
    · exact ha m h1 w hw
    · exact hb k h2 w hw
  induction t generalizing n with
  | word w =>
    rw [CTree.folded] at h
    split at h
    · rename_i hd
      intro v hv
      rw [CTree.words, List.mem_singleton] at hv
      exact hv ▸ hd
    · cases h
  | neg a ih =>
    rw [CTree.folded] at h
    cases ha : a.folded <;> rw [ha] at h <;> simp [Folded.neg] at h
    exact ih ha
  | add a b iha ihb =>
    refine two (fun m => iha) (fun m => ihb) ?_
    rw [CTree.folded] at h
    cases ha : a.folded <;> cases hb : b.folded <;> rw [ha, hb] at h <;> simp [Folded.add, Folded.value?] at h
    exact ⟨_, _, rfl, rfl⟩
  | sub a b iha ihb =>
    refine two (fun m => iha) (fun m => ihb) ?_
    rw [CTree.folded] at h
    cases ha : a.folded <;> cases hb : b.folded <;> rw [ha, hb] at h <;> simp only [Folded.sub] at h <;> try (split at h <;> cases h)
    · exact ⟨_, _, rfl, rfl⟩
    all_goals cases h
  | mul a b iha ihb =>
    refine two (fun m => iha) (fun m => ihb) ?_
    rw [CTree.folded] at h
    cases ha : a.folded <;> cases hb : b.folded <;> rw [ha, hb] at h <;> simp only [Folded.mul, Folded.value?] at h <;> try (split at h <;> cases h)
    · exact ⟨_, _, rfl, rfl⟩
    all_goals cases h

theorem bare_built (h : Heap) (ord : List Char → List Char) (ho : ∀ l, (ord l).Perm l) {source : List Char} {t : CTree} (hsrc : CText 6 source t)
    (hne : ∃ w ∈ t.words, ∃ c ∈ w, ¬ IsDigit c) (avoid : Bool) :
    ∃ w letters nonZero, cryptBuild ord source avoid ⟨.empty, h⟩ = (w, .ok letters) ∧ letters.Nodup ∧
      (∀ c, c ∈ letters ↔ ∃ w ∈ t.words, c ∈ w ∧ ¬ IsDigit c) ∧
      (∀ c, c ∈ nonZero ↔ ∃ w ∈ t.words, w.head? = some c ∧ ¬ IsDigit c) ∧ (∀ c ∈ letters, isCap c = true) ∧
      Built h.params w (tabVars letters letterName (letterDom nonZero)) (fun σ =>
        (∀ c ∈ letters, ∀ c' ∈ letters, c ≠ c' → val σ (letterName c) ≠ val σ (letterName c')) ∧
        t.value (fun c => val σ (letterName c)) ≠ 0) := by
  have hnil : NoWord [] := by intro c hc; cases hc
  have hn : ∀ n, t.folded ≠ .number n := by
    intro n hn
    obtain ⟨w, hw, c, hc, hd⟩ := hne
    exact hd (folded_digits hn w hw c hc)
  obtain ⟨x, toks, ast, hd⟩ := text_done hsrc
  have e1 := hd.expand [] hnil
  have e2 := hd.words [] hnil
  have e3 := hd.lex []
  simp only [List.append_nil, expandGo, flushWord, if_true] at e1
  simp only [List.append_nil, wordsOf, if_true] at e2
  simp only [List.append_nil, show lexGo [] .start = some [] from rfl, Option.map_some] at e3
  obtain ⟨L, hL, hp⟩ := hd.phrase
  obtain ⟨w, letters, nz, arg, e, h1, h2, h3, hcap, ⟨o, rfl, d1⟩, hb⟩ := crypt_words h ord ho e1 e2 (fun w hw => (hd.alnum w hw).2)
    (Q := fun xs arg => ∃ o : Obj, arg = o.toArg ∧ Den xs o (fun s => t.value (fun c => s (letterName c)))) (by
      intro env xs henv
      obtain ⟨o, r1, d1, f1⟩ := hd.run env xs henv
      refine ⟨_, ?_, o, rfl, d1.den⟩
      simp only [pyEvalArg, e3, parseBody_ok hp.zero, r1]
      show Except.ok (o.asArg _) = _
      cases hf : t.folded with
      | number n => exact absurd hf (hn n)
      | constant n => rw [hf] at f1; cases f1; rfl
      | formula => rw [hf] at f1; obtain ⟨e, rfl, _⟩ := f1; rfl) avoid
  obtain ⟨w3, e3, b3⟩ := hb.addDen d1 (by intro x hx; rw [tabVars_keys]; exact hx)
    (by intro x hx; obtain ⟨c, hc, rfl⟩ := List.mem_map.1 hx; exact (cap_facts (hcap c hc)).2.2.2.2.1)
  refine ⟨w3, letters, nz, ?_, h1, h2, h3, hcap, b3⟩
  rw [e]
  simp only [Api.bind_apply, e3]
  rfl

/-- A text without any comparison: with letters it is accepted, and means that it is not 0. -/
theorem C77_bare (h : Heap) (a : SolveArgs) (hs : ∀ l, (a.shuffle l).Perm l) (ha : a.adds = []) (ord : List Char → List Char)
    (ho : ∀ l, (ord l).Perm l) (source : List Char) (t : CTree) (hsrc : CText 6 source t) (hne : ∃ w ∈ t.words, ∃ c ∈ w, ¬ IsDigit c) (avoid : Bool) :
    ∃ w letters, cryptBuild ord source avoid ⟨.empty, h⟩ = (w, .ok letters) ∧ letters.Nodup ∧
      (∀ c, c ∈ letters ↔ ∃ w ∈ t.words, c ∈ w ∧ ¬ IsDigit c) ∧
      PuzzleRun a (puzzleRun a w (cryptDecode letters)) (SolvesFor t.words letters (fun d => t.value d ≠ 0)) := by
  obtain ⟨w, letters, nz, e, h1, h2, h3, hcap, hb⟩ := bare_built h ord ho hsrc hne avoid
  refine ⟨w, letters, e, h1, h2, links_puzzle a hs ha h1 h2 h3 (fun d d' hd h => by rwa [← value_congr t hd]) ?_ hb⟩
  obtain ⟨w, hw, c, hc, hd⟩ := hne
  exact ⟨c, (h2 c).2 ⟨w, hw, hc, hd⟩⟩

/-- … and without letters, as `1 + 2`, it is an int: TypeError. -/
theorem C77_bare_number (h : Heap) (ord : List Char → List Char) (ho : ∀ l, (ord l).Perm l) (source : List Char) (t : CTree)
    (hsrc : CText 6 source t) (hne : ∀ w ∈ t.words, ∀ c ∈ w, IsDigit c) (avoid : Bool) :
    ∃ w, cryptBuild ord source avoid ⟨.empty, h⟩ = (w, .error .typeError) := by
  have hnil : NoWord [] := by intro c hc; cases hc
  obtain ⟨n, hn⟩ := folded_number hne
  obtain ⟨x, toks, ast, hd⟩ := text_done hsrc
  have e1 := hd.expand [] hnil
  have e2 := hd.words [] hnil
  have e3 := hd.lex []
  simp only [List.append_nil, expandGo, flushWord, if_true] at e1
  simp only [List.append_nil, wordsOf, if_true] at e2
  simp only [List.append_nil, show lexGo [] .start = some [] from rfl, Option.map_some] at e3
  obtain ⟨L, hL, hp⟩ := hd.phrase
  obtain ⟨w, letters, nz, arg, e, -, -, -, -, rfl, -⟩ := crypt_words h ord ho e1 e2 (fun w hw => (hd.alnum w hw).2)
    (Q := fun xs arg => arg = .other) (by
      intro env xs henv
      obtain ⟨o, r1, d1, f1⟩ := hd.run env xs henv
      refine ⟨_, ?_, rfl⟩
      simp only [pyEvalArg, e3, parseBody_ok hp.zero, r1]
      show Except.ok (o.asArg _) = _
      rw [hn] at f1
      cases f1
      rw [hd.plain]
      rfl) avoid
  exact ⟨w, e⟩

/-- The full claim: the results are the digits for which all comparisons hold. -/
def C77 : Prop := ∀ (a : SolveArgs), (∀ l, (a.shuffle l).Perm l) → a.adds = [] →
  ∀ (source : List Char) (t : CTree) (rest : List (CRel × CTree)), CLinks source t rest → rest ≠ [] → (∃ w ∈ linkWords t rest, ∃ c ∈ w, ¬ IsDigit c) →
    ∃ w letters, cryptBuild id source true ⟨.empty, heap0⟩ = (w, .ok letters) ∧
      PuzzleRun a (puzzleRun a w (cryptDecode letters)) (SolvesFor (linkWords t rest) letters (fun d => AllHold d t rest))

theorem source_3A5 : CLinks "3<A<5".toList (.word ['3']) [(.lt, .word ['A']), (.lt, .word ['5'])] :=
  .more (s := ['3']) (r := .lt) (source := "A<5".toList) (.term (.factor (.word (w := ['3']) (by simp) (by decide))))
    (.more (s := ['A']) (r := .lt) (source := ['5']) (.term (.factor (.word (w := ['A']) (by simp) (by decide))))
      (.last (.term (.factor (.word (w := ['5']) (by simp) (by decide))))))

theorem decisive_3A5 : Decisive (.word ['3']) [(.lt, .word ['A']), (.lt, .word ['5'])] (.word ['A']) .lt (.word ['5']) :=
  .next (by simp [CTree.folded, IsDigit, CRel.Passes]) .last

/-- `3 < A < 5`: besides `A = 4`, also 1, 2 and 3 are produced. -/
theorem C77_refuted : ¬ C77 := by
  intro h
  have hlet : ∃ w ∈ linkWords (.word ['3']) [(.lt, .word ['A']), (.lt, .word ['5'])], ∃ c ∈ w, ¬ IsDigit c :=
    ⟨['A'], by decide, 'A', by decide, by decide⟩
  obtain ⟨w, letters, h1, h3⟩ := h { solver := {} } (fun l => .refl _) rfl _ _ _ source_3A5 (by simp) hlet
  obtain ⟨w', letters', g1, _, g2, g3, _⟩ := C77_partial heap0 { solver := {} } (fun l => .refl _) rfl id (fun l => .refl _) _ _ _ source_3A5
    _ _ _ decisive_3A5 hlet (by rintro ⟨⟨m, hm⟩, _⟩; simp [CTree.folded, IsDigit] at hm) true
  rw [h1] at g1
  cases g1
  obtain ⟨N, hN⟩ := h3.complete
  obtain ⟨N', hN'⟩ := g3.complete
  obtain ⟨L, e1, _, e2⟩ := hN (max N N') (by omega)
  obtain ⟨L', e1', _, e2'⟩ := hN' (max N N') (by omega)
  rw [e1] at e1'
  cases e1'
  have hl : ∀ c, c ∈ letters ↔ c = 'A' := by
    intro c
    rw [g2]
    constructor
    · rintro ⟨w, hw, hc, hd⟩
      simp [linkWords, CTree.words] at hw
      rcases hw with rfl | rfl | rfl
      · simp at hc; subst hc; exact absurd (by decide) hd
      · simpa using hc
      · simp at hc; subst hc; exact absurd (by decide) hd
    · rintro rfl; exact ⟨['A'], by decide, by decide, by decide⟩
  have hA : ∀ d : Char → Int, (∀ p ∈ letters.map (fun c => (c, (1 : Int))), d p.1 = p.2) → d 'A' = 1 :=
    fun d hd => hd ('A', 1) (List.mem_map.2 ⟨'A', (hl 'A').2 rfl, rfl⟩)
  have hval : SolvesFor (linkWords (.word ['3']) [(.lt, .word ['A']), (.lt, .word ['5'])]) letters
      (fun d => CRel.lt.Holds ((CTree.word ['A']).value d) ((CTree.word ['5']).value d)) (letters.map (fun c => (c, 1))) := by
    refine ⟨by simp [Function.comp_def], ?_, ?_, ?_, ?_⟩
    · intro p hp; obtain ⟨c, _, rfl⟩ := List.mem_map.1 hp; simp
    · intro p hp q hq hne
      obtain ⟨c, hc, rfl⟩ := List.mem_map.1 hp
      obtain ⟨c', hc', rfl⟩ := List.mem_map.1 hq
      exact absurd (((hl c).1 hc).trans ((hl c').1 hc').symm) hne
    · intro w hw c hc hd hm
      simp at hm
    · intro d hd
      simp [CTree.value, wordVal, charVal, IsDigit, hA d hd, CRel.Holds]
  have hnot : ¬ SolvesFor (linkWords (.word ['3']) [(.lt, .word ['A']), (.lt, .word ['5'])]) letters
      (fun d => AllHold d (.word ['3']) [(.lt, .word ['A']), (.lt, .word ['5'])]) (letters.map (fun c => (c, 1))) := by
    intro hv
    have := hv.holds (fun _ => 1) (by intro p hp; obtain ⟨c, _, rfl⟩ := List.mem_map.1 hp; rfl)
    simp [AllHold, CTree.value, wordVal, charVal, IsDigit, CRel.Holds] at this
  rcases e2 with ⟨_, e2⟩ | ⟨_, l, hl, _⟩ | ⟨_, ht⟩
  · rcases e2' with ⟨_, e2'⟩ | ⟨_, l, hl, _⟩ | ⟨_, ht⟩
    · exact hnot ((e2 _).1 ((e2' _).2 hval))
    · cases hl
    · cases ht
  · cases hl
  · cases ht

/-! ## Examples -/

-- the class at work
example : (puzzleRun { solver := {} } (built (cryptBuild id "3<A<5".toList true) []).1
    (cryptDecode (built (cryptBuild id "3<A<5".toList true) []).2) 40).1 = .ok [[('A', 1)], [('A', 2)], [('A', 3)], [('A', 4)]] := by decide +kernel

example : (puzzleRun { solver := {} } (built (cryptBuild id "a*a >= 64".toList true) []).1
    (cryptDecode (built (cryptBuild id "a*a >= 64".toList true) []).2) 40).1 = .ok [[('A', 8)], [('A', 9)]] := by decide +kernel

-- a comparison of numbers that is false decides the chain: nothing is produced, though the rest could be satisfied
example : Decisive (.word ['5']) [(.lt, .word ['3']), (.lt, .word ['A'])] (.word ['5']) .lt (.word ['3']) :=
  .stop (by simp [CTree.folded, IsDigit, CRel.Passes, CRel.Holds, wordVal, charVal])

example : (puzzleRun { solver := {} } (built (cryptBuild id "5<3<A".toList true) []).1
    (cryptDecode (built (cryptBuild id "5<3<A".toList true) []).2) 40).1 = .ok [] := by decide +kernel

-- constants
example : (match (cryptBuild id "0*A<=0*B".toList true ⟨.empty, heap0⟩).2 with | .error .typeError => true | _ => false) = true := by decide +kernel

-- no comparison
example : (puzzleRun { solver := {} } (built (cryptBuild id "1A - 13".toList true) []).1
    (cryptDecode (built (cryptBuild id "1A - 13".toList true) []).2) 40).1 =
      .ok [[('A', 0)], [('A', 1)], [('A', 2)], [('A', 4)], [('A', 5)], [('A', 6)], [('A', 7)], [('A', 8)], [('A', 9)]] := by decide +kernel

example : (match (cryptBuild id "1 + 2".toList true ⟨.empty, heap0⟩).2 with | .error .typeError => true | _ => false) = true := by decide +kernel

-- a text of the grammar with two words
example : CLinks "SEND != More".toList (.word "SEND".toList) [(.ne, .word "MORE".toList)] :=
  .more (s := "SEND ".toList) (r := .ne) (source := " More".toList)
    (.blankR (s := "SEND".toList) (.term (.factor (.word (w := "SEND".toList) (by decide) (by decide)))))
    (.last (.blankL (s := "More".toList) (.term (.factor (.word (w := "More".toList) (by decide) (by decide))))))

end Satisfy.Props
