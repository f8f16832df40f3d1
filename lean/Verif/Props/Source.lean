import Verif.Lemmas.Source
import Verif.Props.Model
import Verif.Props.Compile
import Verif.Lemmas.Names
/-!
# The text of compiled functions: C54

`asFunctionText` (Source.lean) prints the characters of `py_source()`, splits them with Python's tokenizer and parses the lambda. `asFunction`
(Compile.lean), which everything else uses, works on lists of tokens.
-/

namespace Satisfy.Props
open Satisfy

/-! ## Tokens of the printed text -/

theorem key_raw {t : Tok} (h : t ≠ .name "and" ∧ t ≠ .name "or" ∧ t ≠ .name "not") : keywordTok (rawTok t) = t := by
  cases t with
  | name x =>
    obtain ⟨h1, h2, h3⟩ := h
    simp only [ne_eq, Tok.name.injEq] at h1 h2 h3
    simp [rawTok, keywordTok, h1, h2, h3]
  | op o => cases o <;> rfl
  | _ => rfl

/-- Balanced brackets, and no names that are operators. -/
def Fine (ts : List Tok) : Prop := Bal ts ∧ ∀ t ∈ ts, t ≠ .name "and" ∧ t ≠ .name "or" ∧ t ≠ .name "not"

theorem Fine.append {a b} (ha : Fine a) (hb : Fine b) : Fine (a ++ b) :=
  ⟨ha.1.append hb.1, fun t ht => (List.mem_append.1 ht).elim (ha.2 t) (hb.2 t)⟩

theorem Fine.single {t : Tok} (h1 : t ≠ .lpar) (h2 : t ≠ .rpar) (h : t ≠ .name "and" ∧ t ≠ .name "or" ∧ t ≠ .name "not") : Fine [t] :=
  ⟨.single h1 h2, by simpa using h⟩

theorem Fine.op (o : OpTok) {b} (hb : Fine b) : Fine (.op o :: b) :=
  (Fine.single (t := .op o) nofun nofun (by simp)).append hb

theorem Fine.paren {a} (ha : Fine a) : Fine (.lpar :: a ++ [.rpar]) := by
  refine ⟨ha.1.paren, ?_⟩
  intro t ht
  simp only [List.cons_append, List.mem_cons, List.mem_append, List.not_mem_nil, or_false] at ht
  rcases ht with rfl | ht | rfl
  · simp
  · exact ha.2 t ht
  · simp

theorem Fine.int (n : Int) : Fine (intToks n) := by
  have : Fine [.num n.natAbs] := .single nofun nofun (by simp)
  unfold intToks
  split
  · exact .op _ this
  · exact this

theorem Fine.name {x : Name} (h : x ∉ pyKeywords) : Fine [.name x] := by
  refine .single nofun nofun ⟨?_, ?_, ?_⟩ <;> · intro e; simp only [Tok.name.injEq] at e; subst e; exact h (by decide)

theorem Fine.join {vs : List (List Tok)} (h : ∀ v ∈ vs, Fine v) : Fine (joinToks vs) := by
  match vs with
  | [] => exact ⟨.nil, by simp [joinToks]⟩
  | [v] => exact h v (by simp)
  | v :: w :: vs =>
    have := Fine.join (vs := w :: vs) (fun u hu => h u (List.mem_cons_of_mem _ hu))
    exact (h v (by simp)).append ((Fine.single (t := .comma) nofun nofun (by simp)).append this)

theorem Fine.acc (k : AccKind) (c : Int) {vs : List (List Tok)} (h : ∀ v ∈ vs, Fine v) : Fine (accToks k c vs) := by
  have h' : ∀ v ∈ (if c ≠ k.neutral then [intToks c] else []) ++ vs, Fine v := by
    intro v hv
    rcases List.mem_append.1 hv with hv | hv
    · split at hv
      · simp only [List.mem_singleton] at hv; subst hv; exact .int c
      · cases hv
    · exact h v hv
  unfold accToks
  revert h'
  generalize (if c ≠ k.neutral then [intToks c] else []) ++ vs = ws
  intro h'
  match ws with
  | [] => exact .int _
  | [v] => exact h' v (by simp)
  | [v, w] => exact (h' v (by simp)).append (.op _ (h' w (by simp)))
  | u :: v :: w :: ws =>
    have hj := Fine.join h'
    have h1 : Fine [.name k.fn] := by cases k <;> exact .name (by decide)
    have h2 : Fine (.lbrk :: joinToks (u :: v :: w :: ws) ++ [.rbrk]) :=
      ((Fine.single (t := .lbrk) nofun nofun (by simp)).append hj).append (.single nofun nofun (by simp))
    simpa using h1.append h2.paren

mutual
theorem fine_str (e : Expr) (h : ∀ x ∈ e.allNames, x ∉ pyKeywords) : Fine e.strToks := by
  match e with
  | .const v => exact .int v
  | .var x => exact .name (h x (by simp [Expr.allNames]))
  | .param _ x => exact .name (h x (by simp [Expr.allNames]))
  | .un .neg e => exact .op _ (fine_str e h).paren
  | .un .abs e => exact (Fine.name (x := "abs") (by decide)).append (fine_str e h).paren
  | .un .not e => exact .op _ (fine_str e h)
  | .bin o l r =>
    simp only [Expr.allNames, List.mem_append] at h
    have := ((fine_str l (fun x hx => h x (.inl hx))).append (.op o.sym (fine_str r (fun x hx => h x (.inr hx))))).paren
    simpa [Expr.strToks] using this
  | .acc k c es => exact .acc k c (fine_strs es h)
theorem fine_strs (es : List Expr) (h : ∀ x ∈ Expr.allNamesList es, x ∉ pyKeywords) : ∀ v ∈ Expr.strToksList es, Fine v := by
  match es with
  | [] => intro v hv; cases hv
  | e :: es =>
    simp only [Expr.allNamesList, List.mem_append] at h
    intro v hv
    simp only [Expr.strToksList, List.mem_cons] at hv
    rcases hv with rfl | hv
    · exact fine_str e (fun x hx => h x (.inl hx))
    · exact fine_strs es (fun x hx => h x (.inr hx)) v hv
end

mutual
theorem fine_py (ρ : Store) (e : Expr) (h : ∀ x ∈ e.allNames, x ∉ pyKeywords) : Fine (e.pyToks ρ) := by
  match e with
  | .const v => exact .int v
  | .var x => exact .name (h x (by simp [Expr.allNames]))
  | .param i _ => exact .int (ρ i)
  | .un .neg e => exact fine_str (.un .neg e) h
  | .un .abs e => exact fine_str (.un .abs e) h
  | .un .not e => exact .op _ (fine_py ρ e h)
  | .bin o l r =>
    simp only [Expr.allNames, List.mem_append] at h
    have := (fine_py ρ l (fun x hx => h x (.inl hx))).append (.op o.pySym (fine_py ρ r (fun x hx => h x (.inr hx))))
    by_cases ho : o = .or
    · subst ho
      simpa [Expr.pyToks, BOp.pySym] using this
    · have := this.paren
      cases o <;> first | exact absurd rfl ho | simpa [Expr.pyToks] using this
  | .acc k c es => exact .acc k c (fine_pys ρ es h)
theorem fine_pys (ρ : Store) (es : List Expr) (h : ∀ x ∈ Expr.allNamesList es, x ∉ pyKeywords) : ∀ v ∈ Expr.pyToksList ρ es, Fine v := by
  match es with
  | [] => intro v hv; cases hv
  | e :: es =>
    simp only [Expr.allNamesList, List.mem_append] at h
    intro v hv
    simp only [Expr.pyToksList, List.mem_cons] at hv
    rcases hv with rfl | hv
    · exact fine_py ρ e (fun x hx => h x (.inl hx))
    · exact fine_pys ρ es (fun x hx => h x (.inr hx)) v hv
end

/-! ## The whole text -/

/-- The tokens of the parameters. -/
def paramToks (xs : List Name) : List Tok := joinToks (xs.map (fun x => [.name x]) ++ [[.op .dstar, .name dummyName]])

theorem reads_dummy : Reads ("**".toList ++ dummyName.toList) [.op .dstar, .name dummyName] := by
  intro c cs hc
  have h1 := Reads.ident (x := dummyName) (by decide) c cs hc
  have h2 := lex_run (s := ['*', '*']) (p := .start) (ts := [.op .dstar]) (p' := .start) rfl (dummyName.toList ++ c :: cs)
  have e : "**".toList = ['*', '*'] := rfl
  rw [e, List.append_assoc, h2, h1, map_app]; rfl

theorem reads_params (xs : List Name) (h : ∀ x ∈ xs, isIdent x = true) :
    Reads (joinChars [',', ' '] (xs.map String.toList ++ ["**".toList ++ dummyName.toList])) (paramToks xs) := by
  have all : ∀ xs : List Name, (∀ x ∈ xs, isIdent x = true) →
      ReadsAll (xs.map String.toList ++ ["**".toList ++ dummyName.toList]) (xs.map (fun x => [Tok.name x]) ++ [[.op .dstar, .name dummyName]]) := by
    intro xs
    induction xs with
    | nil => intro _; exact .cons reads_dummy .nil
    | cons x xs ih => intro h; exact .cons (.ident (h x (by simp))) (ih (fun y hy => h y (by simp [hy])))
  have h2 := all xs h
  unfold paramToks
  generalize xs.map String.toList ++ ["**".toList ++ dummyName.toList] = ss at h2
  generalize ht : xs.map (fun x => [Tok.name x]) ++ [[.op .dstar, .name dummyName]] = tss at h2
  cases h2 with
  | nil => simp at ht
  | cons h1 h2 => exact h1.join h2

theorem lex_source (ρ : Store) (e : Expr) (hv : ∀ x ∈ e.vars, isIdent x = true) (hn : ∀ x ∈ e.allNames, isIdent x = true) :
    lexGo (e.pySource ρ) .start = some (.name "lambda" :: (paramToks e.vars).map rawTok ++ .colon :: .lpar :: (e.pyToks ρ).map rawTok ++ [.rpar]) := by
  have h1 := reads_params e.vars hv
  have h2 := reads_py ρ e hn
  unfold Expr.pySource
  have e1 : "lambda ".toList = ['l', 'a', 'm', 'b', 'd', 'a', ' '] := rfl
  have e2 : ": (".toList = [':', ' ', '('] := rfl
  rw [e1, e2]
  simp only [List.append_assoc]
  rw [lex_run (p := .start) (ts := [.name "lambda"]) (p' := .start) rfl]
  simp only [List.cons_append, List.nil_append]
  rw [h1 ':' _ (by simp [Follow])]
  have h3 := lex_run (s := [':', ' ', '(']) (p := .start) (ts := [.colon, .lpar]) (p' := .start) rfl (e.pyText ρ ++ [')'])
  simp only [List.cons_append, List.nil_append] at h3
  rw [h3, h2 ')' [] (by simp [Follow])]
  have h4 : lexGo [')'] .start = some [.rpar] := rfl
  rw [h4]
  simp

theorem paramToks_cons (x : Name) (xs : List Name) : paramToks (x :: xs) = .name x :: .comma :: paramToks xs := by
  unfold paramToks
  cases xs <;> rfl

theorem fine_params {xs : List Name} (h : ∀ x ∈ xs, x ∉ pyKeywords) : Fine (paramToks xs) := by
  refine .join ?_
  intro v hv
  simp only [List.mem_append, List.mem_map, List.mem_singleton] at hv
  rcases hv with ⟨x, hx, rfl⟩ | rfl
  · exact .name (h x hx)
  · exact .op _ (.name (by decide))

theorem Fine.keys {ts : List Tok} (h : Fine ts) : (ts.map rawTok).map keywordTok = ts := by
  rw [List.map_map]
  conv => rhs; rw [← List.map_id ts]
  exact List.map_congr_left (fun t ht => key_raw (h.2 t ht))

theorem params_good {xs : List Name} (h : ∀ x ∈ xs, x ∉ pyKeywords) (r : List Tok) :
    lambdaParams (paramToks xs ++ .colon :: r) = some (xs ++ [dummyName], r) := by
  induction xs with
  | nil => rfl
  | cons x xs ih =>
    rw [paramToks_cons]
    simp only [List.cons_append, lambdaParams]
    rw [if_neg (h x (by simp)), ih (fun y hy => h y (by simp [hy]))]
    rfl

theorem params_bad {xs : List Name} (h : ∃ x ∈ xs, x ∈ pyKeywords) (r : List Tok) :
    lambdaParams (((paramToks xs).map rawTok).map keywordTok ++ .colon :: r) = none := by
  induction xs with
  | nil => simp at h
  | cons x xs ih =>
    rw [paramToks_cons]
    by_cases hx : x ∈ pyKeywords
    · by_cases h3 : x = "and" ∨ x = "or" ∨ x = "not"
      · rcases h3 with rfl | rfl | rfl <;> rfl
      · simp only [not_or] at h3
        have : keywordTok (.name x) = .name x := by simp [keywordTok, h3]
        have e : keywordTok .comma = .comma := rfl
        simp only [List.map_cons, rawTok, this, e, List.cons_append, lambdaParams, if_pos hx]
    · have h3 : x ≠ "and" ∧ x ≠ "or" ∧ x ≠ "not" := by
        refine ⟨?_, ?_, ?_⟩ <;> · rintro rfl; exact hx (by decide)
      have : keywordTok (.name x) = .name x := by simp [keywordTok, h3]
      have ih := ih (by
        obtain ⟨y, hy, hk⟩ := h
        rcases List.mem_cons.1 hy with rfl | hy
        · exact absurd hk hx
        · exact ⟨y, hy, hk⟩)
      have e : keywordTok .comma = .comma := rfl
      simp only [List.map_cons, rawTok, this, e, List.cons_append, lambdaParams, if_neg hx, ih]
      rfl

theorem lexFresh_newline (ts : List Tok) : lexFresh '\n' ts = none := rfl

theorem lexStep_newline (p : Pending) : lexStep p '\n' = none := by
  cases p with
  | start => rfl
  | num n => rfl
  | name s => rfl
  | op a =>
    have : pairTok a '\n' = none := by simp [pairTok]
    rw [lexStep, this]
    simp only
    split <;> rfl

theorem lexGo_newline {s : List Char} (h : '\n' ∈ s) (p : Pending) : lexGo s p = none := by
  induction s generalizing p with
  | nil => cases h
  | cons c s ih =>
    rw [lexGo]
    rcases List.mem_cons.1 h with rfl | h
    · rw [lexStep_newline]
    · split
      · rfl
      · rw [ih h]; rfl

theorem mem_joinChars {sep : List Char} {ps : List (List Char)} {p : List Char} {c : Char} (hp : p ∈ ps) (hc : c ∈ p) : c ∈ joinChars sep ps := by
  match ps with
  | [] => cases hp
  | [q] => simp only [List.mem_singleton] at hp; subst hp; exact hc
  | q :: r :: ps =>
    have e : joinChars sep (q :: r :: ps) = q ++ sep ++ joinChars sep (r :: ps) := rfl
    rw [e]
    rcases List.mem_cons.1 hp with rfl | hp
    · simp [hc]
    · simp [mem_joinChars (sep := sep) hp hc]

mutual
theorem allNames_vars (e : Expr) : ∀ x ∈ e.vars, x ∈ e.allNames := by
  match e with
  | .const _ => intro x hx; simp [Expr.vars] at hx
  | .var _ => intro x hx; simpa [Expr.vars, Expr.allNames] using hx
  | .param _ _ => intro x hx; simp [Expr.vars] at hx
  | .un o e => intro x hx; exact allNames_vars e x (mem_vars_un.1 hx)
  | .bin o l r =>
    intro x hx
    simp only [Expr.allNames, List.mem_append]
    exact (mem_vars_bin.1 hx).imp (allNames_vars l x) (allNames_vars r x)
  | .acc k c es =>
    intro x hx
    obtain ⟨e, he, hx⟩ := mem_vars_acc.1 hx
    exact allNames_list es e he x hx
theorem allNames_list (es : List Expr) : ∀ e ∈ es, ∀ x ∈ e.vars, x ∈ Expr.allNamesList es := by
  match es with
  | [] => intro e he; cases he
  | e' :: es =>
    have h1 := allNames_vars e'
    intro e he x hx
    simp only [Expr.allNamesList, List.mem_append]
    rcases List.mem_cons.1 he with rfl | he
    · exact .inl (h1 x hx)
    · exact .inr (allNames_list es e he x hx)
end

/-- **The tokens.** With identifiers that are not keywords as names, Python's tokenizer splits the text into exactly the tokens printed: nothing
runs together, nothing is split. -/
theorem C54_tokens (ρ : Store) (e : Expr) (hn : ∀ x ∈ e.allNames, isIdent x = true ∧ x ∉ pyKeywords) :
    lexText (e.pySource ρ) = some (.name "lambda" :: paramToks e.vars ++ .colon :: .lpar :: e.pyToks ρ ++ [.rpar]) := by
  have hv : ∀ x ∈ e.vars, x ∈ e.allNames := allNames_vars e
  unfold lexText
  rw [lex_source ρ e (fun x hx => (hn x (hv x hx)).1) (fun x hx => (hn x hx).1)]
  have h1 := (fine_params (fun x hx => (hn x (hv x hx)).2)).keys
  have h2 := (fine_py ρ e (fun x hx => (hn x hx).2)).keys
  simp only [Option.map_some, List.map_append, List.map_cons, h1, h2]
  rfl

/-- **The function.** `eval` of the text is the function read from the tokens, also when it is a syntax error. Variable names are identifiers,
or contain a newline. -/
theorem C54_function (ρ : Store) (e : Expr) (hv : ∀ x ∈ e.vars, isIdent x = true ∨ '\n' ∈ x.toList)
    (hp : ∀ x ∈ e.allNames, x ∉ e.vars → isIdent x = true ∧ x ∉ pyKeywords) : asFunctionText ρ e = asFunction ρ e := by
  by_cases hi : ∀ x ∈ e.vars, isIdent x = true
  · have hn : ∀ x ∈ e.allNames, isIdent x = true := by
      intro x hx
      by_cases h : x ∈ e.vars
      · exact hi x h
      · exact (hp x hx h).1
    by_cases hk : ∀ x ∈ e.vars, x ∉ pyKeywords
    · have hn : ∀ x ∈ e.allNames, isIdent x = true ∧ x ∉ pyKeywords := by
        intro x hx
        by_cases h : x ∈ e.vars
        · exact ⟨hi x h, hk x h⟩
        · exact hp x hx h
      have hb := (fine_py ρ e (fun x hx => (hn x hx).2)).1
      have hb := parse_paren hb
      unfold asFunctionText
      rw [C54_tokens ρ e hn]
      simp only [List.cons_append, parseLambda, if_true]
      rw [List.append_assoc, List.cons_append, List.cons_append, params_good hk]
      simp only
      unfold asFunction
      by_cases hd : dummyName ∈ e.vars
      · rw [if_neg (by simp [List.nodup_append, hd]), if_pos (by simp only [List.any_eq_true]; exact ⟨_, hd, by simp⟩)]
      · rw [if_pos (by
          rw [List.nodup_append]
          refine ⟨C03_vars_nodup e, by simp, ?_⟩
          intro a ha b hb
          simp only [List.mem_singleton] at hb
          rintro rfl; subst hb; exact hd ha), if_neg (by
          simp only [List.any_eq_true, not_exists, not_and]
          intro x hx
          have : x ≠ dummyName := by rintro rfl; exact hd hx
          simp [hi x hx, hk x hx, this])]
        simp only [List.cons_append] at hb
        rw [hb]
        cases parseBody (e.pyToks ρ) <;> simp
    · push Not at hk
      unfold asFunctionText asFunction lexText
      rw [lex_source ρ e hi hn, if_pos (by
        obtain ⟨x, hx, h⟩ := hk
        simp only [List.any_eq_true]
        exact ⟨x, hx, by simp [h]⟩)]
      simp only [Option.map_some, List.map_append, List.map_cons, List.cons_append, List.append_assoc]
      have := params_bad hk (keywordTok .lpar :: (((e.pyToks ρ).map rawTok).map keywordTok ++ ([Tok.rpar].map keywordTok)))
      have e1 : keywordTok (.name "lambda") = .name "lambda" := rfl
      have e2 : keywordTok .colon = .colon := rfl
      simp only [parseLambda, e1, e2, if_true, List.map_nil, List.map_cons] at this ⊢
      rw [this]
  · push Not at hi
    obtain ⟨x, hx, hi⟩ := hi
    have hnl := (hv x hx).resolve_left (by simpa using hi)
    have : lexText (e.pySource ρ) = none := by
      unfold lexText
      rw [lexGo_newline]; · rfl
      unfold Expr.pySource
      simp only [List.mem_append]
      refine .inl (.inl (.inl (.inr (mem_joinChars (p := x.toList) ?_ hnl))))
      simp only [List.mem_append, List.mem_map]
      exact .inl ⟨x, hx, rfl⟩
    unfold asFunctionText asFunction
    rw [this, if_pos (by
      simp only [List.any_eq_true]
      exact ⟨x, hx, by simpa using .inl (.inl (by simpa using hi))⟩)]

/-! ## Names given by the model -/

theorem isIdent_of {x : Name} {c : Char} {cs : List Char} (h : x.toList = c :: cs) (hc : c.isAlpha = true ∨ c = '_') (hw : cs.all isWord = true) :
    isIdent x = true := by
  unfold isIdent
  rw [h]
  simp only [Bool.and_eq_true, Bool.or_eq_true, beq_iff_eq]
  exact ⟨hc, hw⟩

/-- A name that `add_variable` and `add_parameter` (model.py:51-93) accept or make up is an identifier, or has a newline at its end. -/
theorem C54_names {pre : String} (hpre : pre = "_v" ∨ pre = "_p") {name : Option Name} {w w' : World} {x : Name} (h : getName pre name w = (w', .ok x)) :
    isIdent x = true ∨ '\n' ∈ x.toList := by
  cases name with
  | none =>
    have h : (w, (Except.ok (pre ++ toString w.model.vars.length) : Res Name)) = (w', .ok x) := h
    simp only [Prod.mk.injEq, Except.ok.injEq] at h
    obtain ⟨-, rfl⟩ := h
    refine .inl ?_
    have hw := toString_word w.model.vars.length
    rcases hpre with rfl | rfl
    · refine isIdent_of (c := '_') (cs := 'v' :: (toString w.model.vars.length).toList) (by rw [String.toList_append]; rfl) (.inr rfl) ?_
      simp only [List.all_cons, Bool.and_eq_true, List.all_eq_true]
      exact ⟨by decide, hw⟩
    · refine isIdent_of (c := '_') (cs := 'p' :: (toString w.model.vars.length).toList) (by rw [String.toList_append]; rfl) (.inr rfl) ?_
      simp only [List.all_cons, Bool.and_eq_true, List.all_eq_true]
      exact ⟨by decide, hw⟩
  | some y =>
    have hg : getName pre (some y) w = (w, if !checkName y then .error .valueError else if w.model.vars.has y then .error .valueError else .ok y) := by
      change (if !checkName y then Api.raise .valueError else if w.model.vars.has y then Api.raise .valueError else pure y : Api Name) w = _
      split <;> [rfl; split <;> rfl]
    rw [hg] at h
    simp only [Prod.mk.injEq] at h
    obtain ⟨-, h⟩ := h
    split at h
    · cases h
    · rename_i hc
      split at h
      · cases h
      · simp only [Except.ok.injEq] at h; subst h
        by_cases hn : '\n' ∈ y.toList
        · exact .inr hn
        · have hl : y.toList.getLast? ≠ some '\n' := fun e => hn (List.mem_of_getLast? e)
          simp only [Bool.not_eq_true, Bool.not_eq_false', checkName, if_neg hl] at hc
          split at hc
          · cases hc
          · rename_i c cs e
            simp only [Bool.and_eq_true] at hc
            exact .inl (isIdent_of e (.inl hc.1) hc.2)

/-- **In a model.** Every expression over variables named by the model, whatever its shape, and with parameters whose names are identifiers and no
keywords: `as_function()` is what the rest of this development takes it to be. -/
theorem C54_model (ρ : Store) (e : Expr) (hv : ∀ x ∈ e.vars, ∃ name w w', getName "_v" name w = (w', .ok x))
    (hp : ∀ x ∈ e.allNames, x ∉ e.vars → isIdent x = true ∧ x ∉ pyKeywords) : asFunctionText ρ e = asFunction ρ e :=
  C54_function ρ e (fun x hx => by obtain ⟨_, _, _, h⟩ := hv x hx; exact C54_names (.inl rfl) h) hp

/-- **Faithful.** On the fragment of C05 the function compiled from the text is a function of the variables, and gives what `evaluate` gives. -/
theorem C54_faithful {ρ : Store} {e : Expr} (h : e.Safe ρ) (hp : ∀ x ∈ e.allNames, x ∉ e.vars → isIdent x = true ∧ x ∉ pyKeywords) :
    (∃ a, asFunctionText ρ e = .fn e.vars a) ∧ ∀ σ v, e.eval ρ σ = .ok v → (asFunctionText ρ e).call σ = .ok v := by
  rw [C54_function ρ e (fun x hx => .inl (h.2 x hx).1) hp]
  exact C05_partial h

-- a text, its tokens and its function: a long sum, minus, abs, a parameter with a negative value, `or`, `and`, `**`
example :
    let e : Expr := .bin .or (.param 0 "p") (.bin .and (.bin .lt (.acc .sum (-3) [.var "x", .un .neg (.var "y"), .var "z"])
      (.bin .pow (.var "x") (.const 2))) (.bin .ne (.un .abs (.bin .sub (.var "x") (.var "y"))) (.param 0 "p")))
    let ρ : Store := fun _ => -7
    String.ofList (e.pySource ρ) =
      "lambda x, y, z, **__dummy_kwargs: (-7 or ((sum([-3, x, -(y), z]) < (x ** 2)) and (abs((x - y)) != -7)))" ∧
    (∀ x ∈ e.allNames, isIdent x = true ∧ x ∉ pyKeywords) ∧ e.Safe ρ ∧
    (asFunctionText (fun _ => 0) e).call [("x", 1), ("y", 2), ("z", 0)] = e.eval (fun _ => 0) [("x", 1), ("y", 2), ("z", 0)] ∧
    e.eval (fun _ => 0) [("x", 1), ("y", 2), ("z", 0)] = .ok 1 := by decide +kernel

-- a name the model accepts, with a newline at its end: a syntax error; a keyword: also one; the name of the last parameter: also one
example : checkName "x\n" = true ∧ (asFunctionText (fun _ => 0) (.var "x\n")) = .fallback ∧ checkName "lambda" = true ∧
    asFunctionText (fun _ => 0) (.var "lambda") = .fallback ∧ asFunctionText (fun _ => 0) (.var dummyName) = .fallback := by
  refine ⟨by decide, rfl, by decide, rfl, rfl⟩

-- the texts of the refuted cases of C05: no brackets around `or`
example :
    let e : Expr := .bin .and (.bin .or (.var "a") (.var "b")) (.var "c")
    String.ofList (e.pySource (fun _ => 0)) = "lambda a, b, c, **__dummy_kwargs: ((a or b and c))" ∧
    (asFunctionText (fun _ => 0) e).call [("a", 1), ("b", 0), ("c", 0)] = .ok 1 ∧ e.eval (fun _ => 0) [("a", 1), ("b", 0), ("c", 0)] = .ok 0 := by
  decide +kernel

end Satisfy.Props
