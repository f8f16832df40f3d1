import Mathlib.Data.List.Forall2
import Verif.Lemmas.Crypt
import Verif.Lemmas.ParseText
import Verif.Lemmas.Queens
import Verif.Props.Graph
/-!
# Cryptarithms: C41

`ord` is the iteration order of the set of letters.
-/

namespace Satisfy.Props
open Satisfy

/-! ## The letters -/

theorem charAdd_spec (s : List Char) (x : Char) : (s.Nodup → (charAdd s x).Nodup) ∧ ∀ c, c ∈ charAdd s x ↔ c ∈ s ∨ c = x := by
  unfold charAdd
  split
  · rename_i h
    exact ⟨fun h => h, fun c => ⟨.inl, fun hc => hc.elim (fun h => h) (fun e => e ▸ h)⟩⟩
  · rename_i h
    refine ⟨fun hn => ?_, fun c => by simp⟩
    rw [List.nodup_append]
    refine ⟨hn, by simp, fun a ha b hb he => ?_⟩
    simp at hb
    exact h (hb ▸ he ▸ ha)

theorem charAdd_fold (l s : List Char) : (s.Nodup → (l.foldl charAdd s).Nodup) ∧ ∀ c, c ∈ l.foldl charAdd s ↔ c ∈ s ∨ c ∈ l := by
  induction l generalizing s with
  | nil => simp
  | cons x l ih =>
    obtain ⟨h1, h2⟩ := ih (charAdd s x)
    obtain ⟨h3, h4⟩ := charAdd_spec s x
    refine ⟨fun h => h1 (h3 h), fun c => ?_⟩
    rw [List.foldl_cons, h2, h4, List.mem_cons, or_assoc]

theorem wordLetters_spec (w s : List Char) : (s.Nodup → (wordLetters w s).Nodup) ∧
    ∀ c, c ∈ wordLetters w s ↔ c ∈ s ∨ (c ∈ w ∧ isDig c = false) := by
  obtain ⟨h1, h2⟩ := groupDigits_ok w
  have gen : ∀ (ps : List (Bool × List Char)) (s : List Char), (∀ p ∈ ps, ∀ c ∈ p.2, isDig c = p.1) →
      (s.Nodup → (ps.foldl (fun s part => if part.1 then s else part.2.foldl charAdd s) s).Nodup) ∧
      ∀ c, c ∈ ps.foldl (fun s part => if part.1 then s else part.2.foldl charAdd s) s ↔ c ∈ s ∨ (c ∈ ps.flatMap Prod.snd ∧ isDig c = false) := by
    intro ps
    induction ps with
    | nil => intro s _; simp
    | cons p ps ih =>
      intro s h
      obtain ⟨h3, h4⟩ := ih (if p.1 then s else p.2.foldl charAdd s) (fun q hq => h q (by simp [hq]))
      obtain ⟨h5, h6⟩ := charAdd_fold p.2 s
      have hp := h p (by simp)
      rw [List.foldl_cons]
      refine ⟨fun hs => h3 ?_, fun c => ?_⟩
      · split
        · exact hs
        · exact h5 hs
      · rw [h4, List.flatMap_cons, List.mem_append]
        by_cases hb : p.1 = true
        · rw [if_pos hb]
          constructor
          · rintro (h | ⟨h, h'⟩)
            · exact .inl h
            · exact .inr ⟨.inr h, h'⟩
          · rintro (h | ⟨h | h, h'⟩)
            · exact .inl h
            · rw [hp c h, hb] at h'; cases h'
            · exact .inr ⟨h, h'⟩
        · rw [if_neg hb, h6]
          constructor
          · rintro ((h | h) | ⟨h, h'⟩)
            · exact .inl h
            · exact .inr ⟨.inl h, by rw [hp c h]; simpa using hb⟩
            · exact .inr ⟨.inr h, h'⟩
          · rintro (h | ⟨h | h, h'⟩)
            · exact .inl (.inl h)
            · exact .inl (.inr h)
            · exact .inr ⟨h, h'⟩
  obtain ⟨h3, h4⟩ := gen (groupDigits w).reverse s (fun p hp => h2 p (by simpa using hp))
  refine ⟨h3, fun c => (h4 c).trans ?_⟩
  have : c ∈ (groupDigits w).reverse.flatMap Prod.snd ↔ c ∈ w := by
    conv => rhs; rw [← h1]
    simp
  rw [this]

theorem letters_spec (ws : List (List Char)) (s : List Char) : (s.Nodup → (ws.foldl (fun s w => wordLetters w s) s).Nodup) ∧
    ∀ c, c ∈ ws.foldl (fun s w => wordLetters w s) s ↔ c ∈ s ∨ ∃ w ∈ ws, c ∈ w ∧ isDig c = false := by
  induction ws generalizing s with
  | nil => simp
  | cons w ws ih =>
    obtain ⟨h1, h2⟩ := ih (wordLetters w s)
    obtain ⟨h3, h4⟩ := wordLetters_spec w s
    refine ⟨fun h => h1 (h3 h), fun c => ?_⟩
    rw [List.foldl_cons, h2, h4]
    simp [or_assoc]

theorem nonZero_spec (ws : List (List Char)) (s : List Char) (c : Char) :
    c ∈ ws.foldl nonZeroAdd s ↔ c ∈ s ∨ ∃ w ∈ ws, w.head? = some c ∧ isDig c = false := by
  induction ws generalizing s with
  | nil => simp
  | cons w ws ih =>
    rw [List.foldl_cons, ih]
    have : c ∈ nonZeroAdd s w ↔ c ∈ s ∨ (w.head? = some c ∧ isDig c = false) := by
      cases w with
      | nil => simp [nonZeroAdd]
      | cons x w =>
        simp only [nonZeroAdd, List.head?_cons, Option.some.injEq]
        by_cases hx : isDig x = true
        · rw [if_pos hx]
          constructor
          · exact .inl
          · rintro (h | ⟨rfl, h⟩)
            · exact h
            · rw [hx] at h; cases h
        · rw [if_neg hx, (charAdd_spec s x).2]
          constructor
          · rintro (h | rfl)
            · exact .inl h
            · exact .inr ⟨rfl, by simpa using hx⟩
          · rintro (h | ⟨rfl, _⟩)
            · exact .inl h
            · exact .inr rfl
    rw [this]
    simp [or_assoc]

theorem letterName_inj {c c' : Char} (h : letterName c = letterName c') : c = c' := by
  have := congrArg String.toList h
  simpa [letterName] using this

theorem aget_zip {cs : List Char} {c : Char} (h : c ∈ cs) :
    aget ((cs.map letterName).zip (cs.map (fun c => Expr.var (letterName c)))) (letterName c) = some (.var (letterName c)) := by
  induction cs with
  | nil => simp at h
  | cons x cs ih =>
    rw [List.map_cons, List.map_cons, List.zip_cons_cons, aget]
    split
    · rename_i he; rw [he]
    · rename_i he
      exact ih ((List.mem_cons.1 h).resolve_left (fun e => he (by rw [e])))

/-! ## The model -/

/-- The domain of a letter. -/
def letterDom (nonZero : List Char) (c : Char) : List Int := if c ∈ nonZero then pyRange 1 10 else pyRange 0 10

theorem mem_letterDom {nz : List Char} {c : Char} {v : Int} : v ∈ letterDom nz c ↔ (0 ≤ v ∧ v ≤ 9) ∧ (c ∈ nz → v ≠ 0) := by
  unfold letterDom
  split
  · rename_i h; rw [mem_pyRange]; simp only [h, true_implies]; omega
  · rename_i h; rw [mem_pyRange]; simp only [h, false_implies, and_true]; omega

theorem asArg_cmp (env : List (Name × Expr)) {a b : Ast} {x y : Obj} (ha : a.run env = .ok x) (hb : b.run env = .ok y) :
    (Obj.cmp .eq x y).asArg (Ast.isBool env (.cmp .eq a b)) = cmpArg .eq x y := by
  cases x with
  | int m =>
    cases y with
    | int n =>
      simp only [Ast.isBool, ha, hb, Obj.cmp, Obj.asArg, cmpArg, if_true]
      cases Cmp.holds .eq m n <;> simp [ofBool, truthy]
    | expr e =>
      simp only [Ast.isBool, ha, hb, cmpArg]
      cases Obj.cmp .eq (.int m) (.expr e) <;> simp [Obj.asArg]
  | expr e =>
    simp only [Ast.isBool, ha, hb, cmpArg]
    cases Obj.cmp .eq (.expr e) y <;> simp [Obj.asArg]

/-- Up to the last step: the digits differ, and what the text was evaluated to is about to be added. -/
theorem crypt_words (h : Heap) (ord : List Char → List Char) (ho : ∀ l, (ord l).Perm l) {source x : List Char} {ws : List (List Char)}
    (hexp : expandGo (source.map Char.toUpper) [] = x) (hwords : wordsOf (source.map Char.toUpper) [] = ws)
    (halnum : ∀ w ∈ ws, ∀ c ∈ w, isWordChar c = true) {Q : List Name → CArg → Prop}
    (heval : ∀ (env : List (Name × Expr)) (xs : List Name), (∀ w ∈ ws, ∀ c ∈ w, isDig c = false → LetterVar env xs c) →
      ∃ arg, pyEvalArg env x = .ok arg ∧ Q xs arg) (avoid : Bool) :
    ∃ w letters nonZero arg, cryptBuild ord source avoid ⟨.empty, h⟩ = ((do addConstraint arg; return letters) : Api (List Char)) w ∧
      letters.Nodup ∧ (∀ c, c ∈ letters ↔ ∃ w ∈ ws, c ∈ w ∧ ¬ IsDigit c) ∧
      (∀ c, c ∈ nonZero ↔ ∃ w ∈ ws, w.head? = some c ∧ ¬ IsDigit c) ∧ (∀ c ∈ letters, isCap c = true) ∧
      Q (letters.map letterName) arg ∧
      Built h.params w (tabVars letters letterName (letterDom nonZero)) (fun σ =>
        ∀ c ∈ letters, ∀ c' ∈ letters, c ≠ c' → val σ (letterName c) ≠ val σ (letterName c')) := by
  obtain ⟨off, hst⟩ := cryptWords_ok (source.map Char.toUpper) (source.map Char.toUpper)
    [] [] [] (cryptInit (source.map Char.toUpper) avoid) (by simp) (by cases avoid <;> rfl) (by cases avoid <;> rfl)
  rw [show (cryptInit (source.map Char.toUpper) avoid).letters = [] by cases avoid <;> rfl,
    show (cryptInit (source.map Char.toUpper) avoid).nonZero = [] by cases avoid <;> rfl, hexp, hwords] at hst
  simp only [if_true, List.append_nil, List.length_nil, List.nil_append] at hst
  obtain ⟨hn, hmem⟩ := letters_spec ws []
  have hperm := ho (ws.foldl (fun s w => wordLetters w s) [])
  have hnz := nonZero_spec ws []
  generalize hletters : ord (ws.foldl (fun s w => wordLetters w s) []) = letters at hperm
  have hnd : letters.Nodup := hperm.nodup_iff.2 (hn List.nodup_nil)
  generalize ws.foldl nonZeroAdd [] = nz at hst hnz
  have hmem' : ∀ c, c ∈ letters ↔ ∃ w ∈ ws, c ∈ w ∧ isDig c = false := by
    intro c; rw [hperm.mem_iff, hmem]; simp
  have hcap : ∀ c ∈ letters, isCap c = true := by
    intro c hc
    obtain ⟨w, hw, hcw, hd⟩ := (hmem' c).1 hc
    have := halnum w hw c hcw
    simpa [isWordChar, hd] using this
  have hnames : (letters.map letterName).Nodup := List.Nodup.map (fun _ _ h => letterName_inj h) hnd
  obtain ⟨w1, e1, b1⟩ := (BuiltC.empty h).addTabs (is := []) (nm := letterName) (dom := letterDom nz) letters
    (fun c _ => by unfold letterDom; split <;> exact pyRange_nodup _ _) (fun c hc => (cap_facts (hcap c hc)).2.2.2.1)
    (by simpa using hnames)
  simp only [List.nil_append] at b1
  obtain ⟨arg, heval, hQ⟩ := heval ((letters.map letterName).zip (letters.map (fun c => Expr.var (letterName c)))) (letters.map letterName) (by
    intro w hw c hc hd
    have : c ∈ letters := (hmem' c).2 ⟨w, hw, hc, hd⟩
    exact ⟨aget_zip this, List.mem_map_of_mem this⟩)
  obtain ⟨w2, e2, b2⟩ := b1.addAllDiff (letters.map letterName) (by intro x hx; rw [tabVars_keys]; exact hx)
  refine ⟨w2, letters, nz, arg, ?_, hnd, ?_, ?_, hcap, hQ, b2.congr (fun σ hσ => ?_)⟩
  · have hes : (letters.map (fun c => Expr.var (letterName c))).map Expr.name = letters.map letterName := by
      rw [List.map_map]; rfl
    have e1' : Api.each (fun c => addIntVariable (if c ∈ nz then pyRange 1 10 else pyRange 0 10) (some (letterName c))) letters ⟨.empty, h⟩ =
      (w1, .ok (letters.map (fun c => Expr.var (letterName c)))) := e1
    simp only [cryptBuild, Api.bind_apply, Api.lift, hst, hletters, e1', heval, hes, e2]
  · intro c
    rw [hmem']
    simp only [← isDig_iff, Bool.not_eq_true]
  · intro c
    rw [hnz]
    simp only [← isDig_iff, Bool.not_eq_true]
    simp
  · rw [allDiff_tab hσ (fun _ _ h => letterName_inj h) (fun c hc => hc)]
    simp

/-- For an equation: the comparison is about to be added. -/
theorem crypt_front (h : Heap) (ord : List Char → List Char) (ho : ∀ l, (ord l).Perm l) {source : List Char} {l r : CTree}
    (hsrc : CSource source l r) (avoid : Bool) :
    ∃ w letters nonZero o o', cryptBuild ord source avoid ⟨.empty, h⟩ = ((do addConstraint (cmpArg .eq o o'); return letters) : Api (List Char)) w ∧
      letters.Nodup ∧ (∀ c, c ∈ letters ↔ CLetter l r c) ∧
      (∀ c, c ∈ nonZero ↔ ∃ w ∈ l.words ++ r.words, w.head? = some c ∧ ¬ IsDigit c) ∧ (∀ c ∈ letters, isCap c = true) ∧
      FoldsTo l.folded o ∧ FoldsTo r.folded o' ∧
      Den (letters.map letterName) o (fun s => l.value (fun c => s (letterName c))) ∧
      Den (letters.map letterName) o' (fun s => r.value (fun c => s (letterName c))) ∧
      Built h.params w (tabVars letters letterName (letterDom nonZero)) (fun σ =>
        ∀ c ∈ letters, ∀ c' ∈ letters, c ≠ c' → val σ (letterName c) ≠ val σ (letterName c')) := by
  obtain ⟨s, t, rfl, hs, ht⟩ := hsrc
  obtain ⟨x, toks, ast, hl⟩ := text_done hs
  obtain ⟨x', toks', ast', hr⟩ := text_done ht
  have hup : (s ++ "==".toList ++ t).map Char.toUpper = s.map Char.toUpper ++ '=' :: '=' :: t.map Char.toUpper := by
    simp [show Char.toUpper '=' = '=' from rfl]
  have hnil : NoWord [] := by intro c hc; cases hc
  have hexp : expandGo ((s ++ "==".toList ++ t).map Char.toUpper) [] = x ++ '=' :: '=' :: x' := by
    have := hr.expand [] hnil
    simp only [List.append_nil, expandGo, flushWord, if_true] at this
    rw [hup, hl.expand _ (noWord_cons rfl _), (expand_cons (c := '=') rfl _).1, (expand_cons (c := '=') rfl _).1, this]
  have hwords : wordsOf ((s ++ "==".toList ++ t).map Char.toUpper) [] = l.words ++ r.words := by
    have := hr.words [] hnil
    simp only [List.append_nil, wordsOf, if_true] at this
    rw [hup, hl.words _ (noWord_cons rfl _), (expand_cons (c := '=') rfl _).2, (expand_cons (c := '=') rfl _).2, this]
  obtain ⟨w, letters, nz, arg, e, h1, h2, h3, h4, ⟨o, o', rfl, f1, f2, d1, d2⟩, hb⟩ := crypt_words h ord ho hexp hwords (by
      intro w hw c hc
      rcases List.mem_append.1 hw with hw | hw
      · exact (hl.alnum w hw).2 c hc
      · exact (hr.alnum w hw).2 c hc)
    (Q := fun xs arg => ∃ o o', arg = cmpArg .eq o o' ∧ FoldsTo l.folded o ∧ FoldsTo r.folded o' ∧
      Den xs o (fun s => l.value (fun c => s (letterName c))) ∧ Den xs o' (fun s => r.value (fun c => s (letterName c)))) (by
      intro env xs henv
      obtain ⟨o, r1, d1, f1⟩ := hl.run env xs (fun w hw => henv w (List.mem_append_left _ hw))
      obtain ⟨o', r2, d2, f2⟩ := hr.run env xs (fun w hw => henv w (List.mem_append_right _ hw))
      refine ⟨_, ?_, o, o', rfl, f1, f2, d1.den, d2.den⟩
      have hlex : lexGo (x ++ '=' :: '=' :: x') .start = some (toks ++ .op .eq :: toks') := by
        have := hr.lex []
        simp only [List.append_nil] at this
        rw [hl.lex, lex_eqeq, this, show lexGo [] .start = some [] from rfl]
        simp
      obtain ⟨L, hL, p1⟩ := hl.phrase
      obtain ⟨L', hL', p2⟩ := hr.phrase
      have := parseBody_ok (bin_phrase (o := .eq) (m := 3) rfl (by simp) p1 p2 (by omega) (by omega))
      simp only [pyEvalArg, hlex, this]
      show (do return (← Ast.run _ (.cmp .eq ast ast')).asArg _ : Res CArg) = _
      rw [← asArg_cmp _ r1 r2]
      simp only [Ast.run, r1, r2, OpTok.cmp?]
      rfl) avoid
  exact ⟨w, letters, nz, o, o', e, h1, h2, h3, h4, f1, f2, d1, d2, hb⟩

/-- Unless both sides are constants the constructor succeeds, and the model says: the digits differ, and the equation holds. -/
theorem crypt_built (h : Heap) (ord : List Char → List Char) (ho : ∀ l, (ord l).Perm l) {source : List Char} {l r : CTree}
    (hsrc : CSource source l r) (hbc : ¬ BothConstant l r) (avoid : Bool) :
    ∃ w letters nonZero, cryptBuild ord source avoid ⟨.empty, h⟩ = (w, .ok letters) ∧ letters.Nodup ∧
      (∀ c, c ∈ letters ↔ CLetter l r c) ∧
      (∀ c, c ∈ nonZero ↔ ∃ w ∈ l.words ++ r.words, w.head? = some c ∧ ¬ IsDigit c) ∧
      Built h.params w (tabVars letters letterName (letterDom nonZero)) (fun σ =>
        (∀ c ∈ letters, ∀ c' ∈ letters, c ≠ c' → val σ (letterName c) ≠ val σ (letterName c')) ∧
        l.value (fun c => val σ (letterName c)) = r.value (fun c => val σ (letterName c))) := by
  obtain ⟨w2, letters, nz, o, o', e, hnd, h1, h2, hcap, f1, f2, d1, d2, b2⟩ := crypt_front h ord ho hsrc avoid
  obtain ⟨w3, e3, b3⟩ := b2.addCmp .eq d1 d2 (by intro x hx; rw [tabVars_keys]; exact hx)
    (by intro x hx; obtain ⟨c, hc, rfl⟩ := List.mem_map.1 hx; exact (cap_facts (hcap c hc)).2.2.2.2.1)
    (fun ⟨⟨m, hm⟩, ⟨n, hn⟩⟩ => hbc ⟨f1.constant hm, f2.constant hn⟩)
  refine ⟨w3, letters, nz, ?_, hnd, h1, h2, b3.congr (fun σ hσ => ?_)⟩
  · rw [e]
    simp only [Api.bind_apply, e3]
    rfl
  · simp [Cmp.holds]

theorem value_congr {d d' : Char → Int} (t : CTree) (h : ∀ w ∈ t.words, ∀ c ∈ w, ¬ IsDigit c → d c = d' c) : t.value d = t.value d' := by
  induction t with
  | word w =>
    have gen : ∀ (w : List Char) (n : Int), (∀ c ∈ w, ¬ IsDigit c → d c = d' c) →
        w.foldl (fun n c => 10 * n + charVal d c) n = w.foldl (fun n c => 10 * n + charVal d' c) n := by
      intro w
      induction w with
      | nil => intro n _; rfl
      | cons c w ih =>
        intro n h
        have : charVal d c = charVal d' c := by
          unfold charVal
          split
          · rfl
          · rename_i hc; exact h c (by simp) hc
        rw [List.foldl_cons, List.foldl_cons, this]
        exact ih _ (fun x hx => h x (by simp [hx]))
    exact gen w 0 (h w (by simp [CTree.words]))
  | neg a ih => rw [CTree.value, CTree.value, ih h]
  | add a b iha ihb =>
    rw [CTree.value, CTree.value, iha (fun w hw => h w (List.mem_append_left _ hw)), ihb (fun w hw => h w (List.mem_append_right _ hw))]
  | sub a b iha ihb =>
    rw [CTree.value, CTree.value, iha (fun w hw => h w (List.mem_append_left _ hw)), ihb (fun w hw => h w (List.mem_append_right _ hw))]
  | mul a b iha ihb =>
    rw [CTree.value, CTree.value, iha (fun w hw => h w (List.mem_append_left _ hw)), ihb (fun w hw => h w (List.mem_append_right _ hw))]

/-- Without letters, a side is a number. -/
theorem folded_number {t : CTree} (h : ∀ w ∈ t.words, ∀ c ∈ w, IsDigit c) : ∃ n, t.folded = .number n := by
  induction t with
  | word w => exact ⟨_, by rw [CTree.folded, if_pos (h w (by simp [CTree.words]))]⟩
  | neg a ih => obtain ⟨n, hn⟩ := ih h; exact ⟨-n, by rw [CTree.folded, hn]; rfl⟩
  | add a b iha ihb =>
    obtain ⟨m, hm⟩ := iha (fun w hw => h w (List.mem_append_left _ hw))
    obtain ⟨n, hn⟩ := ihb (fun w hw => h w (List.mem_append_right _ hw))
    exact ⟨m + n, by rw [CTree.folded, hm, hn]; rfl⟩
  | sub a b iha ihb =>
    obtain ⟨m, hm⟩ := iha (fun w hw => h w (List.mem_append_left _ hw))
    obtain ⟨n, hn⟩ := ihb (fun w hw => h w (List.mem_append_right _ hw))
    exact ⟨m - n, by rw [CTree.folded, hm, hn]; rfl⟩
  | mul a b iha ihb =>
    obtain ⟨m, hm⟩ := iha (fun w hw => h w (List.mem_append_left _ hw))
    obtain ⟨n, hn⟩ := ihb (fun w hw => h w (List.mem_append_right _ hw))
    exact ⟨m * n, by rw [CTree.folded, hm, hn]; rfl⟩

theorem constant_letter {t : CTree} {m : Int} (h : t.folded = .constant m) : ¬ ∀ w ∈ t.words, ∀ c ∈ w, IsDigit c := by
  intro hd
  obtain ⟨n, hn⟩ := folded_number hd
  rw [hn] at h
  cases h

theorem sub_value {f g : Folded} {n : Int} (h : (f.sub g).value? = some n) : ∃ m k, f.value? = some m ∧ g.value? = some k ∧ n = m - k := by
  cases f with
  | formula => simp [Folded.sub, Folded.value?] at h
  | number m =>
    cases g with
    | formula => simp [Folded.sub, Folded.value?] at h
    | number k => exact ⟨m, k, rfl, rfl, by simpa [Folded.sub, Folded.value?] using h.symm⟩
    | constant k =>
      by_cases h0 : m = 0
      · simp [Folded.sub, Folded.value?, h0] at h
      · exact ⟨m, k, rfl, rfl, by simpa [Folded.sub, Folded.value?, h0] using h.symm⟩
  | constant m =>
    cases g with
    | formula => simp [Folded.sub, Folded.value?] at h
    | number k => simp [Folded.sub, Folded.value?] at h
    | constant k =>
      by_cases h0 : m = 0
      · simp [Folded.sub, Folded.value?, h0] at h
      · exact ⟨m, k, rfl, rfl, by simpa [Folded.sub, Folded.value?, h0] using h.symm⟩

theorem mul_value {f g : Folded} {n : Int} (h : (f.mul g).value? = some n) : (∃ m k, f.value? = some m ∧ g.value? = some k ∧ n = m * k) ∨
    (f.value? = some 0 ∧ n = 0) ∨ (g.value? = some 0 ∧ n = 0) := by
  cases f with
  | formula =>
    cases g with
    | formula => simp [Folded.mul, Folded.value?] at h
    | number k =>
      by_cases h0 : k = 0
      · exact .inr (.inr ⟨by rw [h0]; rfl, by simpa [Folded.mul, Folded.value?, h0] using h.symm⟩)
      · simp [Folded.mul, Folded.value?, h0] at h
    | constant k =>
      by_cases h0 : k = 0
      · exact .inr (.inr ⟨by rw [h0]; rfl, by simpa [Folded.mul, Folded.value?, h0] using h.symm⟩)
      · simp [Folded.mul, Folded.value?, h0] at h
  | number m =>
    cases g with
    | formula =>
      by_cases h0 : m = 0
      · exact .inr (.inl ⟨by rw [h0]; rfl, by simpa [Folded.mul, Folded.value?, h0] using h.symm⟩)
      · simp [Folded.mul, Folded.value?, h0] at h
    | number k => exact .inl ⟨m, k, rfl, rfl, by simpa [Folded.mul, Folded.value?] using h.symm⟩
    | constant k => exact .inl ⟨m, k, rfl, rfl, by simpa [Folded.mul, Folded.value?] using h.symm⟩
  | constant m =>
    cases g with
    | formula =>
      by_cases h0 : m = 0
      · exact .inr (.inl ⟨by rw [h0]; rfl, by simpa [Folded.mul, Folded.value?, h0] using h.symm⟩)
      · simp [Folded.mul, Folded.value?, h0] at h
    | number k => exact .inl ⟨m, k, rfl, rfl, by simpa [Folded.mul, Folded.value?] using h.symm⟩
    | constant k => exact .inl ⟨m, k, rfl, rfl, by simpa [Folded.mul, Folded.value?] using h.symm⟩

/-- A known value is the value. -/
theorem folded_value (d : Char → Int) (t : CTree) {n : Int} (h : t.folded.value? = some n) : t.value d = n := by
  induction t generalizing n with
  | word w =>
    rw [CTree.folded] at h
    split at h
    · rename_i hd
      cases h
      exact value_congr (d := d) (d' := fun _ => 0) (.word w) (fun v hv c hc hn => by
        rw [CTree.words, List.mem_singleton] at hv; subst hv; exact absurd (hd c hc) hn)
    · cases h
  | neg a ih =>
    rw [CTree.folded] at h
    rw [CTree.value]
    cases ha : a.folded <;> rw [ha] at h ih <;> simp only [Folded.neg, Folded.value?, Option.some.injEq, reduceCtorEq] at h
    rw [ih rfl, h]
  | add a b iha ihb =>
    rw [CTree.folded] at h
    rw [CTree.value]
    cases ha : a.folded <;> cases hb : b.folded <;> rw [ha, hb] at h <;> rw [ha] at iha <;> rw [hb] at ihb <;>
      simp only [Folded.add, Folded.value?, Option.some.injEq, reduceCtorEq] at h <;> rw [iha rfl, ihb rfl, h]
  | sub a b iha ihb =>
    obtain ⟨m, k, h1, h2, rfl⟩ := sub_value h
    rw [CTree.value, iha h1, ihb h2]
  | mul a b iha ihb =>
    rw [CTree.value]
    rcases mul_value h with ⟨m, k, h1, h2, rfl⟩ | ⟨h1, rfl⟩ | ⟨h1, rfl⟩
    · rw [iha h1, ihb h2]
    · rw [iha h1, Int.zero_mul]
    · rw [ihb h1, Int.mul_zero]

/-- From the model to the results. -/
theorem crypt_puzzle {ρ : Store} {w : World} {letters nz : List Char} {ws : List (List Char)} {l r : CTree} (a : SolveArgs)
    (hs : ∀ l, (a.shuffle l).Perm l) (ha : a.adds = []) (hnd : letters.Nodup) (h2 : ∀ c, c ∈ letters ↔ ∃ w ∈ ws, c ∈ w ∧ ¬ IsDigit c)
    (h3 : ∀ c, c ∈ nz ↔ ∃ w ∈ ws, w.head? = some c ∧ ¬ IsDigit c) (hl : ∀ w ∈ l.words, w ∈ ws) (hr : ∀ w ∈ r.words, w ∈ ws)
    (hne : ∃ c, c ∈ letters)
    (hb : Built ρ w (tabVars letters letterName (letterDom nz)) (fun σ =>
        (∀ c ∈ letters, ∀ c' ∈ letters, c ≠ c' → val σ (letterName c) ≠ val σ (letterName c')) ∧
        l.value (fun c => val σ (letterName c)) = r.value (fun c => val σ (letterName c)))) :
    PuzzleRun a (puzzleRun a w (cryptDecode letters)) (SolvesWords ws letters l r) := by
  have hdec : ∀ τ, Exact (tabVars letters letterName (letterDom nz)) τ →
      cryptDecode letters τ = .ok (letters.map (fun c => (c, val τ (letterName c)))) := by
    intro τ hτ
    refine Res.each_ok (g := fun c => (c, val τ (letterName c))) (fun c hc => ?_)
    obtain ⟨v, _, hv⟩ := hτ.val hc
    rw [Subst.at_ok hv, val_eq hv]
    rfl
  have hnames : (letters.map letterName).Nodup := List.Nodup.map (fun _ _ h => letterName_inj h) hnd
  have hmemL : ∀ w ∈ ws, ∀ c ∈ w, ¬ IsDigit c → c ∈ letters := fun w hw c hc hd => (h2 c).2 ⟨w, hw, hc, hd⟩
  refine hb.puzzle hs ha ?_ ?_ ?_ ?_ ?_
  · obtain ⟨c, this⟩ := hne
    cases letters with
    | nil => simp at this
    | cons c cs => simp [tabVars]
  · intro τ hτ ⟨hd, he⟩
    refine ⟨_, hdec τ hτ, ?_, ?_, ?_, ?_, ?_⟩
    · simp [Function.comp_def]
    · intro p hp
      obtain ⟨c, hc, rfl⟩ := List.mem_map.1 hp
      obtain ⟨v, hv, hg⟩ := hτ.val hc
      rw [val_eq hg]
      exact (mem_letterDom.1 hv).1
    · intro p hp q hq hpq
      obtain ⟨c, hc, rfl⟩ := List.mem_map.1 hp
      obtain ⟨c', hc', rfl⟩ := List.mem_map.1 hq
      exact hd c hc c' hc' hpq
    · intro w hw c hc hdig hmem
      obtain ⟨c', hc', he'⟩ := List.mem_map.1 hmem
      simp only [Prod.mk.injEq] at he'
      obtain ⟨rfl, h0⟩ := he'
      obtain ⟨v, hv, hg⟩ := hτ.val hc'
      rw [val_eq hg] at h0
      exact (mem_letterDom.1 hv).2 ((h3 c').2 ⟨w, hw, hc, hdig⟩) h0
    · intro d hd'
      have key : ∀ w ∈ ws, ∀ c ∈ w, ¬ IsDigit c → d c = val τ (letterName c) := by
        intro w hw c hc hdig
        exact hd' (c, val τ (letterName c)) (List.mem_map_of_mem (hmemL w hw c hc hdig))
      rw [value_congr l (fun w hw => key w (hl w hw)), value_congr r (fun w hw => key w (hr w hw))]
      exact he
  · intro L hL
    have hfst := hL.letters
    have hndL : (L.map Prod.fst).Nodup := by rw [hfst]; exact hnd
    have hget : ∀ p ∈ L, aget L p.1 = some p.2 := by
      clear hfst hL
      induction L with
      | nil => simp
      | cons q L ih =>
        intro p hp
        rw [List.map_cons, List.nodup_cons] at hndL
        rw [aget]
        rcases List.mem_cons.1 hp with rfl | hp
        · simp
        · rw [if_neg, ih hndL.2 p hp]
          rintro e
          exact hndL.1 (e ▸ List.mem_map_of_mem hp)
    have hLmap : L = letters.map (fun c => (c, (aget L c).getD 0)) := by
      rw [← hfst, List.map_map]
      conv => lhs; rw [← List.map_id L]
      refine List.map_congr_left (fun p hp => ?_)
      simp [hget p hp]
    have hval : ∀ c ∈ letters, val (tab letters letterName (fun c => (aget L c).getD 0)) (letterName c) = (aget L c).getD 0 :=
      fun c hc => val_eq (tab_get hnames hc)
    have hmem : ∀ c ∈ letters, (c, (aget L c).getD 0) ∈ L := by
      intro c hc
      rw [← hfst] at hc
      obtain ⟨p, hp, rfl⟩ := List.mem_map.1 hc
      rw [hget p hp]
      exact hp
    have hex : Exact (tabVars letters letterName (letterDom nz)) (tab letters letterName (fun c => (aget L c).getD 0)) := by
      refine tab_exact hnames (fun c hc => mem_letterDom.2 ⟨hL.digits _ (hmem c hc), fun hz h0 => ?_⟩)
      obtain ⟨w, hw, hcw, hdig⟩ := (h3 c).1 hz
      exact hL.leading w hw c hcw hdig (h0 ▸ hmem c hc)
    refine ⟨_, hex, ⟨?_, ?_⟩, ?_⟩
    · intro c hc c' hc' hne
      rw [hval c hc, hval c' hc']
      exact hL.different _ (hmem c hc) _ (hmem c' hc') hne
    · refine hL.equation _ (fun p hp => ?_)
      have : p.1 ∈ letters := by rw [← hfst]; exact List.mem_map_of_mem hp
      rw [hval _ this, hget p hp]; rfl
    · rw [hdec _ hex]
      congr 1
      rw [List.map_congr_left (fun c hc => by rw [hval c hc]), ← hLmap]
  · intro τ τ' hτ hτ' _ _ he
    rw [hdec τ hτ, hdec τ' hτ'] at he
    have he := Except.ok.inj he
    refine hτ.same hτ' (fun x hx => ?_)
    rw [tabVars_keys] at hx
    obtain ⟨c, hc, rfl⟩ := List.mem_map.1 hx
    obtain ⟨v, _, hv⟩ := hτ.val hc
    obtain ⟨v', _, hv'⟩ := hτ'.val hc
    rw [hv, hv']
    have := List.map_inj_left.1 he c hc
    simp only [Prod.mk.injEq, true_and] at this
    rw [val_eq hv, val_eq hv'] at this
    rw [this]
  · intro τ τ' h
    unfold cryptDecode
    simp only [h.at]

theorem solves_iff {letters : List Char} {l r : CTree} {L : List (Char × Int)} :
    SolvesWords (l.words ++ r.words) letters l r L ↔ CSolution true letters l r L :=
  ⟨fun h => ⟨h.letters, h.digits, h.different, fun _ => h.leading, h.equation⟩,
    fun h => ⟨h.letters, h.digits, h.different, h.leading rfl, h.equation⟩⟩

/-- For every cryptarithm with a letter the constructor succeeds, and its solutions are exactly the assignments without leading zeros, each
once; a solution is a dict of the letters. Missing from the full claim: `avoid_leading_zeros=False` (leading zeros are still excluded,
`C41_refuted`), equations without letters (`C41_no_letters`), and equations where the letters of both sides disappear, as in `0*A == 0*B`
(`C41_type_error`). -/
theorem C41_partial (h : Heap) (a : SolveArgs) (hs : ∀ l, (a.shuffle l).Perm l) (ha : a.adds = []) (ord : List Char → List Char)
    (ho : ∀ l, (ord l).Perm l) (source : List Char) (l r : CTree) (hsrc : CSource source l r) (hne : ∃ c, CLetter l r c)
    (hbc : ¬ BothConstant l r) (avoid : Bool) :
    ∃ w letters, cryptBuild ord source avoid ⟨.empty, h⟩ = (w, .ok letters) ∧ letters.Nodup ∧ (∀ c, c ∈ letters ↔ CLetter l r c) ∧
      PuzzleRun a (puzzleRun a w (cryptDecode letters)) (CSolution true letters l r) ∧
      ∀ n, ∀ τ ∈ (solveRun a w.model passive n w.heap).1, ∀ x, x ∈ τ.keys ↔ x ∈ letters.map letterName := by
  obtain ⟨w, letters, nz, h1, hnd, h2, h3, hb⟩ := crypt_built h ord ho hsrc hbc avoid
  refine ⟨w, letters, h1, hnd, h2, ?_, fun n τ hτ x => by rw [(hb.sound hs ha n τ hτ).1.keys, tabVars_keys]⟩
  have := crypt_puzzle a hs ha hnd h2 h3 (fun w hw => List.mem_append_left _ hw) (fun w hw => List.mem_append_right _ hw)
    (by obtain ⟨c, hc⟩ := hne; exact ⟨c, (h2 c).2 hc⟩) hb
  rwa [show SolvesWords (l.words ++ r.words) letters l r = CSolution true letters l r from funext (fun L => propext solves_iff)] at this

/-- If both sides are constants, though there are letters on both, their comparison is an int, and the constructor raises TypeError. -/
theorem C41_type_error (h : Heap) (ord : List Char → List Char) (ho : ∀ l, (ord l).Perm l) (source : List Char) (l r : CTree)
    (hsrc : CSource source l r) (hbc : BothConstant l r) (avoid : Bool) :
    ∃ w, cryptBuild ord source avoid ⟨.empty, h⟩ = (w, .error .typeError) := by
  obtain ⟨w2, letters, nz, o, o', e, -, -, -, -, f1, f2, -⟩ := crypt_front h ord ho hsrc avoid
  obtain ⟨⟨m, hm⟩, ⟨n, hn⟩⟩ := hbc
  rw [hm] at f1
  rw [hn] at f2
  cases f1
  cases f2
  exact ⟨w2, e⟩

/-- A side that is a constant has this value, whatever the digits are, and there are letters in it. -/
theorem C41_constant (t : CTree) (m : Int) (h : t.folded = .constant m) : (∀ d, t.value d = m) ∧ ∃ w ∈ t.words, ∃ c ∈ w, ¬ IsDigit c := by
  refine ⟨fun d => folded_value d t (by rw [h]; rfl), by_contra fun hn => constant_letter h (fun w hw c hc => by_contra fun hd => hn ⟨w, hw, c, hc, hd⟩)⟩

/-- An equation without letters: no variables, so nothing is produced, even if it is true. -/
theorem C41_no_letters (h : Heap) (a : SolveArgs) (hs : ∀ l, (a.shuffle l).Perm l) (ord : List Char → List Char)
    (ho : ∀ l, (ord l).Perm l) (source : List Char) (l r : CTree) (hsrc : CSource source l r) (hne : ∀ c, ¬ CLetter l r c) (avoid : Bool) :
    ∃ w, cryptBuild ord source avoid ⟨.empty, h⟩ = (w, .ok []) ∧ ∀ n, (puzzleRun a w (cryptDecode []) n).1 = .ok [] := by
  obtain ⟨w, letters, nz, h1, hnd, h2, h3, hb⟩ := crypt_built h ord ho hsrc
    (fun ⟨⟨m, hm⟩, _⟩ => constant_letter hm (fun w hw c hc => by_contra fun hd => hne c ⟨w, List.mem_append_left _ hw, hc, hd⟩)) avoid
  have : letters = [] := List.eq_nil_iff_forall_not_mem.2 (fun c hc => hne c ((h2 c).1 hc))
  subst this
  exact ⟨w, h1, fun n => puzzle_no_vars hs (by rw [hb.pureKeys]; rfl) _ n⟩

/-- The full claim. -/
def C41 : Prop := ∀ (a : SolveArgs), (∀ l, (a.shuffle l).Perm l) → a.adds = [] →
  ∀ (source : List Char) (l r : CTree), CSource source l r → ∀ avoid : Bool,
    ∃ w letters, cryptBuild id source avoid ⟨.empty, heap0⟩ = (w, .ok letters) ∧ (∀ c, c ∈ letters ↔ CLetter l r c) ∧
      PuzzleRun a (puzzleRun a w (cryptDecode letters)) (CSolution avoid letters l r)

theorem source_A0 : CSource "A==0".toList (.word ['A']) (.word ['0']) :=
  ⟨['A'], ['0'], rfl, .term (.factor (.word (w := ['A']) (by simp) (by decide))), .term (.factor (.word (w := ['0']) (by simp) (by decide)))⟩

/-- With `avoid_leading_zeros=False`, `A == 0` has the solution `A = 0`; it is not produced. -/
theorem C41_refuted : ¬ C41 := by
  intro h
  obtain ⟨w, letters, h1, h2, h3⟩ := h { solver := {} } (fun l => .refl _) rfl _ _ _ source_A0 false
  obtain ⟨w', letters', g1, _, _, g3, _⟩ := C41_partial heap0 { solver := {} } (fun l => .refl _) rfl id (fun l => .refl _) _ _ _ source_A0
    ⟨'A', ['A'], by decide, by decide, by decide⟩ (by rintro ⟨⟨m, hm⟩, _⟩; simp [CTree.folded, IsDigit] at hm) false
  rw [h1] at g1
  cases g1
  obtain ⟨N, hN⟩ := h3.complete
  obtain ⟨N', hN'⟩ := g3.complete
  obtain ⟨L, e1, _, e2⟩ := hN (max N N') (by omega)
  obtain ⟨L', e1', _, e2'⟩ := hN' (max N N') (by omega)
  rw [e1] at e1'
  cases e1'
  have hlet : ∀ c, c ∈ letters ↔ c = 'A' := by
    intro c
    rw [h2]
    constructor
    · rintro ⟨w, hw, hc, hd⟩
      simp [CTree.words] at hw
      rcases hw with rfl | rfl
      · simpa using hc
      · simp at hc; subst hc; exact absurd (by decide) hd
    · rintro rfl; exact ⟨['A'], by decide, by decide, by decide⟩
  have hval : CSolution false letters (.word ['A']) (.word ['0']) (letters.map (fun c => (c, 0))) := by
    refine ⟨by simp [Function.comp_def], ?_, ?_, by simp, ?_⟩
    · intro p hp; obtain ⟨c, _, rfl⟩ := List.mem_map.1 hp; simp
    · intro p hp q hq hne
      obtain ⟨c, hc, rfl⟩ := List.mem_map.1 hp
      obtain ⟨c', hc', rfl⟩ := List.mem_map.1 hq
      exact absurd (((hlet c).1 hc).trans ((hlet c').1 hc').symm) hne
    · intro d hd
      have : d 'A' = 0 := hd ('A', 0) (List.mem_map.2 ⟨'A', (hlet 'A').2 rfl, rfl⟩)
      simp [CTree.value, wordVal, charVal, IsDigit, this]
  have hnot : ¬ CSolution true letters (.word ['A']) (.word ['0']) (letters.map (fun c => (c, 0))) := by
    intro hv
    exact hv.leading rfl ['A'] (by decide) 'A' rfl (by decide) (List.mem_map.2 ⟨'A', (hlet 'A').2 rfl, rfl⟩)
  rcases e2 with ⟨_, e2⟩ | ⟨_, l, hl, _⟩ | ⟨_, ht⟩
  · rcases e2' with ⟨_, e2'⟩ | ⟨_, l, hl, _⟩ | ⟨_, ht⟩
    · exact hnot ((e2' _).1 ((e2 _).2 hval))
    · cases hl
    · cases ht
  · cases hl
  · cases ht

/-! ## Examples -/

-- a text of the grammar
example : CSource "send + more == Money".toList (.add (.word "SEND".toList) (.word "MORE".toList)) (.word "MONEY".toList) :=
  ⟨"send + more ".toList, " Money".toList, rfl,
    .add (s := "send ".toList) (t := " more ".toList)
      (.term (.factor (.blankR (s := "send".toList) (.word (w := "send".toList) (by decide) (by decide)))))
      (.factor (.blankL (s := "more ".toList) (.blankR (s := "more".toList) (.word (w := "more".toList) (by decide) (by decide))))),
    .term (.factor (.blankL (s := "Money".toList) (.word (w := "Money".toList) (by decide) (by decide))))⟩

-- sides that are constants, though there are letters in them
example : BothConstant (.mul (.word ['0']) (.word ['A'])) (.mul (.word ['0']) (.word ['B'])) := ⟨⟨0, by decide⟩, ⟨0, by decide⟩⟩
example : CTree.folded (.add (.mul (.word ['0']) (.word ['A'])) (.word ['3'])) = .constant 3 := by decide
example : (match (cryptBuild id "0*A==0*B".toList true ⟨.empty, heap0⟩).2 with | .error .typeError => true | _ => false) = true := by decide +kernel
-- with a number on one side, there is no exception; `0*A == 0` is always satisfied
example : (puzzleRun { solver := {} } (built (cryptBuild id "0*A==0".toList true) []).1
    (cryptDecode (built (cryptBuild id "0*A==0".toList true) []).2) 20).1 = .ok [[('A', 1)], [('A', 2)], [('A', 3)], [('A', 4)], [('A', 5)],
      [('A', 6)], [('A', 7)], [('A', 8)], [('A', 9)]] := by decide +kernel

-- the text handed to `eval`
example : (match cryptWords "A1B*BA==-7".toList (wordSpans 0 none "A1B*BA==-7".toList) (cryptInit "A1B*BA==-7".toList true) with
    | .ok st => some (String.ofList st.mod, st.letters, st.nonZero)
    | .error _ => none) = some ("(10 + B + (A * 100))*(0 + A + (B * 10))==-(7)", ['B', 'A'], ['A', 'B']) := by decide +kernel

-- the class at work
example : (puzzleRun { solver := {} } (built (cryptBuild id "a3 == 1*13".toList true) []).1
    (cryptDecode (built (cryptBuild id "a3 == 1*13".toList true) []).2) 20).1 = .ok [[('A', 1)]] := by decide +kernel

/-! ## Chains of `==` -/

/-- The tokens of `== p1 == p2 …`. -/
def eqToks : List (List Tok × Ast) → List Tok
  | [] => []
  | p :: ps => .op .eq :: p.1 ++ eqToks ps

/-- What the parser makes of them, after `a`, the last operand of the chain `acc`. -/
def eqAst (acc : Option Ast) (a : Ast) : List (List Tok × Ast) → Ast
  | [] => acc.getD a
  | p :: ps => eqAst (some (match acc with | none => .cmp .eq a p.2 | some c => .and c (.cmp .eq a p.2))) p.2 ps

theorem pChain_eqs (ps : List (List Tok × Ast)) (hp : ∀ p ∈ ps, ∃ L, 4 ≤ L ∧ Phrase p.1 L p.2) (acc : Option Ast) (a : Ast) (r : List Tok)
    (hs : stopB 0 r = true) (f : Nat) (hf : 14 * (eqToks ps).length < f + 12 * ps.length) : pChain f acc a (eqToks ps ++ r) = some (eqAst acc a ps, r) := by
  have hs' : ∀ m, stopB m r = true := fun m => stopB_mono (Nat.zero_le m) hs
  induction ps generalizing acc a f with
  | nil =>
    obtain ⟨f, rfl⟩ : ∃ g, f = g + 1 := ⟨f - 1, by simp at hf; omega⟩
    exact pChain_stop (hs' 3)
  | cons p ps ih =>
    have hlen : ps.length ≤ (eqToks ps).length := by
      clear ih hf hp
      induction ps with
      | nil => simp
      | cons q qs ih => simp [eqToks]; omega
    obtain ⟨f, rfl⟩ : ∃ g, f = g + 1 := ⟨f - 1, by simp [eqToks] at hf; omega⟩
    obtain ⟨L, hL, ph⟩ := hp p (by simp)
    simp only [eqToks, List.cons_append, List.length_cons, List.length_append, List.append_assoc] at hf ⊢
    have hstop : stopB 4 (eqToks ps ++ r) = true := by
      cases ps with
      | nil => exact hs' 4
      | cons q qs => rfl
    rw [pChain_op, if_pos (show OpTok.eq.level = some 3 from rfl), ph.at_level (l := 4) hL hstop f (by omega)]
    exact ih (fun q hq => hp q (by simp [hq])) _ _ f (by omega)

theorem eqs_phrase {t : List Tok} {a : Ast} {L : Nat} (h : Phrase t L a) (hL : 4 ≤ L) (ps : List (List Tok × Ast))
    (hp : ∀ p ∈ ps, ∃ L, 4 ≤ L ∧ Phrase p.1 L p.2) (hne : ps ≠ []) : Phrase0 (t ++ eqToks ps) (eqAst none a ps) := by
  have h1 := h.pos
  have hk := List.length_pos_iff.2 hne
  have hlen : ps.length ≤ (eqToks ps).length := by
    clear hk hp hne
    induction ps with
    | nil => simp
    | cons q qs ih => simp [eqToks]; omega
  refine ⟨by simp; omega, fun r hs => ?_⟩
  have base : Parses (14 * (t.length + (eqToks ps).length) - 10) 3 (t ++ eqToks ps ++ r) (eqAst none a ps) r := by
    intro f hf
    obtain ⟨f, rfl⟩ : ∃ g, f = g + 1 := ⟨f - 1, by omega⟩
    have hstop : stopB 4 (eqToks ps ++ r) = true := by
      cases ps with
      | nil => exact stopB_mono (Nat.zero_le _) hs
      | cons q qs => rfl
    rw [List.append_assoc, pE_3, h.at_level (l := 4) hL hstop f (by omega)]
    exact pChain_eqs ps hp none a r hs f (by omega)
  refine (downTo (L := 3) (l := 0) (by omega) (by omega) (by omega) base hs ?_ ?_).mono (by simp; omega)
  · intro _ _; exact headNot_append (headNot_append (h.h2 (by omega)) h1) (by simp; omega)
  · intro _ h; omega

theorem cmp_truth {f g : Folded} {o o' : Obj} (h : FoldsTo f o) (h' : FoldsTo g o') (hp : f.passes g) : (Obj.cmp .eq o o').truth = true := by
  have key : ∀ (c : Cmp) (e : Expr) (o : Obj), NotConsts (.expr e) o → (e.pyCmp c o).truth = true := by
    intro c e o hn
    unfold Expr.pyCmp
    split
    · exact absurd ⟨⟨_, rfl⟩, ⟨_, rfl⟩⟩ hn
    · rfl
  have gen : ∀ {a b : Obj}, NotConsts a b → ((∃ e, a = .expr e) ∨ ∃ e, b = .expr e) → (Obj.cmp .eq a b).truth = true := by
    intro a b hn hx
    unfold Obj.cmp
    split
    · rcases hx with ⟨_, hx⟩ | ⟨_, hx⟩ <;> cases hx
    · exact key _ _ _ (.right (by simp))
    · exact key _ _ _ (.left (by simp))
    · exact key _ _ _ hn
  have hform : ∀ {o : Obj}, FoldsTo .formula o → (∃ e, o = .expr e) ∧ ∀ m, o ≠ .expr (.const m) := by
    rintro o ⟨e, rfl, he⟩
    exact ⟨⟨e, rfl⟩, fun m hm => by cases hm; exact he.not_const m rfl⟩
  cases f with
  | formula => exact gen (.left (hform h).2) (.inl (hform h).1)
  | number m => cases g with
    | formula => exact gen (.right (hform h').2) (.inr (hform h').1)
    | number n => cases h; cases h'; cases hp; simp [Obj.cmp, Obj.truth, Cmp.holds, ofBool, truthy]
    | constant n => cases h; cases h'; exact gen (.left (by simp)) (.inr ⟨_, rfl⟩)
  | constant m => cases g with
    | formula => exact gen (.right (hform h').2) (.inr (hform h').1)
    | number n => cases h; cases h'; exact gen (.right (by simp)) (.inl ⟨_, rfl⟩)
    | constant n => cases h; cases h'; cases hp; simp [Obj.cmp, Expr.pyCmp, Obj.truth, Cmp.holds, ofBool, truthy]

/-- Evaluated for `add_constraint`. -/
def Ast.arg (env : List (Name × Expr)) (a : Ast) : Res CArg := do return (← a.run env).asArg (a.isBool env)

theorem arg_and {env : List (Name × Expr)} {a b : Ast} {x : Obj} (h : a.run env = .ok x) (ht : x.truth = true) :
    Ast.arg env (.and a b) = Ast.arg env b ∧ Ast.run env (.and a b) = Ast.run env b := by
  simp [Ast.arg, Ast.run, Ast.isBool, h, ht]

/-- The expression of a text, evaluated. -/
def RunsTo (env : List (Name × Expr)) (xs : List Name) (t : CTree) (p : List Tok × Ast) : Prop :=
  ∃ o, p.2.run env = .ok o ∧ DenP xs o (fun s => t.value (fun c => s (letterName c))) ∧ FoldsTo t.folded o

/-- Only the last comparison is left. -/
theorem eqs_arg {env : List (Name × Expr)} {xs : List Name} {l r : CTree} (pre : List CTree) (acc : Option Ast) (p : List Tok × Ast)
    (ps : List (List Tok × Ast)) (hacc : ∀ c, acc = some c → ∃ x, c.run env = .ok x ∧ x.truth = true)
    (hrun : List.Forall₂ (RunsTo env xs) (pre ++ [l, r]) (p :: ps)) (hpass : allPass (pre ++ [l])) :
    ∃ o o', Ast.arg env (eqAst acc p.2 ps) = .ok (cmpArg .eq o o') ∧ FoldsTo l.folded o ∧ FoldsTo r.folded o' ∧
      Den xs o (fun s => l.value (fun c => s (letterName c))) ∧ Den xs o' (fun s => r.value (fun c => s (letterName c))) := by
  induction pre generalizing acc p ps with
  | nil =>
    cases hrun with
    | cons h1 h2 => cases h2 with
      | cons h2 h3 =>
        cases h3
        rename_i q
        obtain ⟨o, r1, d1, f1⟩ := h1
        obtain ⟨o', r2, d2, f2⟩ := h2
        refine ⟨o, o', ?_, f1, f2, d1.den, d2.den⟩
        have hc : Ast.arg env (.cmp .eq p.2 q.2) = .ok (cmpArg .eq o o') := by
          rw [← asArg_cmp _ r1 r2]
          simp only [Ast.arg, Ast.run, r1, r2, OpTok.cmp?]
          rfl
        cases acc with
        | none => exact hc
        | some c =>
          obtain ⟨x, hx, ht⟩ := hacc c rfl
          exact (arg_and hx ht).1.trans hc
  | cons t pre ih =>
    rw [List.cons_append] at hrun
    cases hrun with
    | cons h1 h2 =>
      obtain ⟨t', rest, ht'⟩ : ∃ t' rest, pre ++ [l, r] = t' :: rest := by cases pre <;> simp
      have hpass' : t.folded.passes t'.folded ∧ allPass (pre ++ [l]) := by
        cases pre with
        | nil => simp only [List.nil_append, List.cons.injEq] at ht'; obtain ⟨rfl, _⟩ := ht'; exact hpass
        | cons u us => simp only [List.cons_append, List.cons.injEq] at ht'; obtain ⟨rfl, _⟩ := ht'; exact hpass
      cases ps with
      | nil => rw [ht'] at h2; cases h2
      | cons q qs =>
        have h2' := h2
        rw [ht'] at h2'
        cases h2' with
        | cons h3 _ =>
          obtain ⟨o, r1, d1, f1⟩ := h1
          obtain ⟨o', r2, d2, f2⟩ := h3
          have hc : Ast.run env (.cmp .eq p.2 q.2) = .ok (Obj.cmp .eq o o') := by
            simp only [Ast.run, r1, r2, OpTok.cmp?]
            rfl
          refine ih _ q qs ?_ h2 hpass'.2
          intro c hc'
          cases hc'
          cases acc with
          | none => exact ⟨_, hc, cmp_truth f1 f2 hpass'.1⟩
          | some c =>
            obtain ⟨x, hx, ht⟩ := hacc c rfl
            exact ⟨_, (arg_and hx ht).2.trans hc, cmp_truth f1 f2 hpass'.1⟩

/-- What the text of a chain becomes. -/
theorem chain_done {source : List Char} {ts : List CTree} (h : CChain source ts) : ∃ x p ps,
    expandGo (source.map Char.toUpper) [] = x ∧ wordsOf (source.map Char.toUpper) [] = ts.flatMap CTree.words ∧
      (∀ w ∈ ts.flatMap CTree.words, ∀ c ∈ w, isWordChar c = true) ∧ lexGo x .start = some (p.1 ++ eqToks ps) ∧
      (∀ q ∈ p :: ps, ∃ L, 4 ≤ L ∧ Phrase q.1 L q.2) ∧
      ∀ env xs, (∀ w ∈ ts.flatMap CTree.words, ∀ c ∈ w, isDig c = false → LetterVar env xs c) →
        List.Forall₂ (RunsTo env xs) ts (p :: ps) := by
  have hnil : NoWord [] := by intro c hc; cases hc
  induction h with
  | @last s t hs =>
    obtain ⟨x, toks, ast, hd⟩ := text_done hs
    have e1 := hd.expand [] hnil
    have e2 := hd.words [] hnil
    have e3 := hd.lex []
    simp only [List.append_nil, expandGo, flushWord, if_true] at e1
    simp only [List.append_nil, wordsOf, if_true] at e2
    simp only [List.append_nil] at e3
    obtain ⟨L, hL, hp⟩ := hd.phrase
    refine ⟨x, (toks, ast), [], e1, by simpa using e2, ?_, by simpa [eqToks, show lexGo [] .start = some [] from rfl] using e3, ?_, ?_⟩
    · intro w hw; exact (hd.alnum w (by simpa using hw)).2
    · intro q hq
      obtain rfl : q = (toks, ast) := by simpa using hq
      exact ⟨L, by omega, hp⟩
    · intro env xs henv
      exact .cons (hd.run env xs (fun w hw => henv w (by simpa using hw))) .nil
  | @more s t source ts hs _ ih =>
    obtain ⟨x, toks, ast, hd⟩ := text_done hs
    obtain ⟨x', p, ps, e1, e2, e3, e4, e5, e6⟩ := ih
    have hup : (s ++ "==".toList ++ source).map Char.toUpper = s.map Char.toUpper ++ '=' :: '=' :: source.map Char.toUpper := by
      simp [show Char.toUpper '=' = '=' from rfl]
    obtain ⟨L, hL, hp⟩ := hd.phrase
    refine ⟨x ++ '=' :: '=' :: x', (toks, ast), p :: ps, ?_, ?_, ?_, ?_, ?_, ?_⟩
    · rw [hup, hd.expand _ (noWord_cons rfl _), (expand_cons (c := '=') rfl _).1, (expand_cons (c := '=') rfl _).1, e1]
    · rw [hup, hd.words _ (noWord_cons rfl _), (expand_cons (c := '=') rfl _).2, (expand_cons (c := '=') rfl _).2, e2]; rfl
    · intro w hw
      rw [List.flatMap_cons] at hw
      rcases List.mem_append.1 hw with hw | hw
      · exact (hd.alnum w hw).2
      · exact e3 w hw
    · rw [hd.lex, lex_eqeq, e4]; simp [eqToks]
    · intro q hq
      rcases List.mem_cons.1 hq with rfl | hq
      · exact ⟨L, by omega, hp⟩
      · exact e5 q hq
    · intro env xs henv
      exact .cons (hd.run env xs (fun w hw => henv w (by rw [List.flatMap_cons]; exact List.mem_append_left _ hw)))
        (e6 env xs (fun w hw => henv w (by rw [List.flatMap_cons]; exact List.mem_append_right _ hw)))

/-- A chain of `==` is accepted, but only its last equation is solved: the results are the digits for the letters of the whole text (all
different, no word beginning with a zero) with `l = r`, whatever the other expressions are worth. -/
theorem C41_chain (h : Heap) (a : SolveArgs) (hs : ∀ l, (a.shuffle l).Perm l) (ha : a.adds = []) (ord : List Char → List Char)
    (ho : ∀ l, (ord l).Perm l) (source : List Char) (pre : List CTree) (l r : CTree) (hsrc : CChain source (pre ++ [l, r]))
    (hpass : allPass (pre ++ [l])) (hne : ∃ w ∈ (pre ++ [l, r]).flatMap CTree.words, ∃ c ∈ w, ¬ IsDigit c) (hbc : ¬ BothConstant l r) (avoid : Bool) :
    ∃ w letters, cryptBuild ord source avoid ⟨.empty, h⟩ = (w, .ok letters) ∧ letters.Nodup ∧
      (∀ c, c ∈ letters ↔ ∃ w ∈ (pre ++ [l, r]).flatMap CTree.words, c ∈ w ∧ ¬ IsDigit c) ∧
      PuzzleRun a (puzzleRun a w (cryptDecode letters)) (SolvesWords ((pre ++ [l, r]).flatMap CTree.words) letters l r) := by
  obtain ⟨x, p, ps, e1, e2, e3, e4, e5, e6⟩ := chain_done hsrc
  obtain ⟨w, letters, nz, arg, e, h1, h2, h3, hcap, ⟨o, o', rfl, f1, f2, d1, d2⟩, hb⟩ := crypt_words h ord ho e1 e2 e3
    (Q := fun xs arg => ∃ o o', arg = cmpArg .eq o o' ∧ FoldsTo l.folded o ∧ FoldsTo r.folded o' ∧
      Den xs o (fun s => l.value (fun c => s (letterName c))) ∧ Den xs o' (fun s => r.value (fun c => s (letterName c)))) (by
      intro env xs henv
      obtain ⟨o, o', ha, f1, f2, d1, d2⟩ := eqs_arg pre none p ps (by simp) (e6 env xs henv) hpass
      refine ⟨_, ?_, o, o', rfl, f1, f2, d1, d2⟩
      obtain ⟨L, hL, hp⟩ := e5 p (by simp)
      have hne' : ps ≠ [] := by
        rintro rfl
        have := (e6 env xs henv).length_eq
        simp at this
      have := parseBody_ok (eqs_phrase hp hL ps (fun q hq => e5 q (by simp [hq])) hne')
      simp only [pyEvalArg, e4, this]
      exact ha) avoid
  obtain ⟨w3, e3, b3⟩ := hb.addCmp .eq d1 d2 (by intro x hx; rw [tabVars_keys]; exact hx)
    (by intro x hx; obtain ⟨c, hc, rfl⟩ := List.mem_map.1 hx; exact (cap_facts (hcap c hc)).2.2.2.2.1)
    (fun ⟨⟨m, hm⟩, ⟨n, hn⟩⟩ => hbc ⟨f1.constant hm, f2.constant hn⟩)
  refine ⟨w3, letters, ?_, h1, h2, crypt_puzzle a hs ha h1 h2 h3 ?_ ?_ ?_ (b3.congr (fun σ hσ => by simp [Cmp.holds]))⟩
  · rw [e]
    simp only [Api.bind_apply, e3]
    rfl
  · intro w hw; rw [List.mem_flatMap]; exact ⟨l, by simp, hw⟩
  · intro w hw; rw [List.mem_flatMap]; exact ⟨r, by simp, hw⟩
  · obtain ⟨w, hw, c, hc, hd⟩ := hne
    exact ⟨c, (h2 c).2 ⟨w, hw, hc, hd⟩⟩

-- the hypotheses, and the class at work: `A == B == 3` is taken for `B == 3`
example : CChain "A == B == 3".toList [.word ['A'], .word ['B'], .word ['3']] ∧ allPass [.word ['A'], .word ['B']] ∧
    ¬ BothConstant (.word ['B']) (.word ['3']) :=
  ⟨.more (s := "A ".toList) (.blankR (.term (.factor (.word (w := ['A']) (by simp) (by decide)))))
    (.more (s := " B ".toList) (.blankL (.blankR (.term (.factor (.word (w := ['B']) (by simp) (by decide))))))
      (.last (.blankL (.term (.factor (.word (w := ['3']) (by simp) (by decide))))))),
    ⟨by simp [CTree.folded, IsDigit, Folded.passes], trivial⟩, by rintro ⟨⟨m, hm⟩, _⟩; simp [CTree.folded, IsDigit] at hm⟩

example : (puzzleRun { solver := { limit := some 3 } } (built (cryptBuild id "A == B == 3".toList true) []).1
    (cryptDecode (built (cryptBuild id "A == B == 3".toList true) []).2) 80).1 =
      .ok [[('A', 1), ('B', 3)], [('A', 2), ('B', 3)], [('A', 4), ('B', 3)]] := by decide +kernel

end Satisfy.Props
