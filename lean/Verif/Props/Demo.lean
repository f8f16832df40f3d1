import Verif.Props.Limits
import Verif.Props.Cryptarithm
import Verif.Props.Optimize
import Verif.Lemmas.Order
import Verif.Demo
import Verif.SpecDemo
import Mathlib.Data.String.Basic
import Mathlib.Tactic.IntervalCases
/-!
# The texts printed by the demos: C46, C47
-/

namespace Satisfy.Props
open Satisfy

/-! ## C46: statistics -/

theorem SameDict.symm' {σ τ : Subst} (h : SameDict σ τ) : SameDict τ σ := fun x => (h x).symm
theorem SameDict.trans' {σ τ υ : Subst} (h : SameDict σ τ) (h' : SameDict τ υ) : SameDict σ υ := fun x => (h x).trans (h' x)

theorem count_le {L L' : List Subst} (hp : L.Pairwise (fun σ τ => ¬ SameDict σ τ)) (h : ∀ σ ∈ L, ∃ σ' ∈ L', SameDict σ' σ) :
    L.length ≤ L'.length := by
  classical
  induction L generalizing L' with
  | nil => simp
  | cons σ L ih =>
    rw [List.pairwise_cons] at hp
    obtain ⟨σ', hσ', hs⟩ := h σ (by simp)
    have := ih hp.2 (L' := L'.erase σ') (fun τ hτ => by
      obtain ⟨τ', hτ', ht⟩ := h τ (by simp [hτ])
      refine ⟨τ', (List.mem_erase_of_ne ?_).2 hτ', ht⟩
      rintro rfl
      exact hp.1 τ hτ (SameDict.trans' (SameDict.symm' hs) ht))
    rw [List.length_erase_of_mem hσ'] at this
    have := List.length_pos_of_mem hσ'
    simp only [List.length_cons]
    omega

/-- The number of solutions is well defined. -/
theorem solutionCount_unique {m : Model} {cs : List Constraint} {h : Heap} {n n' : Nat} (h1 : SolutionCount m cs h n) (h2 : SolutionCount m cs h n') :
    n = n' := by
  obtain ⟨L, rfl, a1, a2, a3⟩ := h1
  obtain ⟨L', rfl, b1, b2, b3⟩ := h2
  exact Nat.le_antisymm (count_le a2 (fun σ hσ => b3 σ (a1 σ hσ))) (count_le b2 (fun σ hσ => a3 σ (b1 σ hσ)))

/-- C46: what the demos print after an iteration that has ended (for a model with a variable, not marked unsolvable, whose constraints are
over its variables). "unique": there is exactly one solution; "all n": there are exactly `n`, and not 1; "k partial": `k` solutions have
been handed out, and the search has been interrupted for the reason shown. -/
theorem C46_stats {a : SolveArgs} {m : Model} {h : Heap} (hok : SolveOk a m h) (hsol : m.solvable = true)
    (hvar : ∃ x, (m.domain? x).isSome) (hover : ∀ c ∈ m.constraints ++ a.adds, Over m c) (fmt : Int → String) (n : Nat)
    (hend : (solveRun a m passive n h).2.1.phase = .finished) :
    let r := solveRun a m passive n h
    let text := r.2.1.statsText fmt
    let secs := fmt r.2.1.timer.stats.2
    (text = "\nFound unique solution in " ++ secs ++ " seconds" ∧ SolutionCount m (m.constraints ++ a.adds) r.2.2 1) ∨
    (∃ k, text = "\nFound all " ++ toString k ++ " solutions in " ++ secs ++ " seconds" ∧ k ≠ 1 ∧
      SolutionCount m (m.constraints ++ a.adds) r.2.2 k) ∨
    ∃ k s why, text = "\nFound " ++ toString k ++ " partial solution" ++ s ++ " in " ++ secs ++ " seconds [" ++ why ++ " reached]" ∧
      k = r.1.length ∧ (s = "" ↔ k = 1) ∧
      (why = "limit" ∧ (∃ l, a.solver.limit = some l ∧ (k : Int) ≥ l) ∨ why = "timeout" ∧ a.solver.timeout.isSome) := by
  intro r text secs
  have hcount : r.2.1.timer.stats.1 = r.1.length := by
    have := (C22_stats a hok.shuffle m passive h n).2.2
    exact congrArg Prod.fst this
  have hnum : ∀ hint : r.2.1.interrupt = none, SolutionCount m (m.constraints ++ a.adds) r.2.2 r.1.length := fun hint =>
    ⟨r.1, rfl, C14_sound hok hover n, C16_distinct hok n, C15_complete hok hsol hvar n hend hint⟩
  have htext : text = solveStatsText r.1.length secs r.2.1.interrupt := by
    show solveStatsText _ _ _ = _
    rw [hcount]
  cases hint : r.2.1.interrupt with
  | none =>
    rw [hint] at htext
    by_cases h1 : r.1.length = 1
    · refine .inl ⟨?_, h1 ▸ hnum hint⟩
      rw [htext]
      simp [solveStatsText, h1]
    · refine .inr (.inl ⟨r.1.length, ?_, h1, hnum hint⟩)
      rw [htext]
      simp [solveStatsText, h1, String.append_assoc]
  | some i =>
    rw [hint] at htext
    refine .inr (.inr ⟨r.1.length, if r.1.length = 1 then "" else "s", i.text, ?_, rfl, ?_, ?_⟩)
    · rw [htext]; rfl
    · split <;> simp_all
    · obtain ⟨D, ph, ho⟩ := outcome a m h hok.shuffle hok.wf.names
      obtain ⟨N, hN, hc⟩ := ho a.solver.limit a.solver.timeout a.clock
      have hr : solveRun (a.cut a.solver.limit a.solver.timeout a.clock) m passive N h = r := over_unique (a := a) hN (by rw [hend]; trivial)
      rw [hr] at hc
      cases hc with
      | natural _ _ h3 _ => rw [hint] at h3; cases h3
      | timeout _ _ h3 h4 _ => rw [hint] at h3; cases h3; exact .inr ⟨rfl, h4⟩
      | limit l _ _ h3 h4 h5 => rw [hint] at h3; cases h3; exact .inl ⟨rfl, l, h4, by omega⟩

example : (solveRun exArgs exModel passive 12 exHeap).2.1.statsText (fun _ => "0.000") = "\nFound all 2 solutions in 0.000 seconds" := by decide

example : (solveRun { exArgs with solver := { limit := some 1 } } exModel passive 12 exHeap).2.1.statsText (fun _ => "0.000") =
    "\nFound 1 partial solution in 0.000 seconds [limit reached]" := by decide

/-- The hypotheses are met. -/
example := C46_stats exOk rfl ⟨"x", rfl⟩ exOver (fun _ => "0.000") 12 rfl

/-- "partial" does not mean that there are more: two solutions, limit 2, and two "partial" ones are reported. -/
theorem C46_limit_is_total :
    (solveRun { exArgs with solver := { limit := some 2 } } exModel passive 12 exHeap).2.1.statsText (fun _ => "0.000") =
      "\nFound 2 partial solutions in 0.000 seconds [limit reached]" ∧
    SolutionCount exModel (exModel.constraints ++ exArgs.adds) (solveRun exArgs exModel passive 12 exHeap).2.2 2 := by
  exact ⟨by decide, _, by decide, C14_sound exOk exOver 12, C16_distinct exOk 12, C15_complete exOk rfl ⟨"x", rfl⟩ 12 rfl rfl⟩

/-- Without the hypothesis that there is a variable: the empty model has one solution (the empty one), and "all 0" are reported. -/
theorem C46_no_variables :
    (solveRun exArgs ⟨[], [], true⟩ passive 12 exHeap).2.1.statsText (fun _ => "0.000") = "\nFound all 0 solutions in 0.000 seconds" ∧
    SolutionCount ⟨[], [], true⟩ [] exHeap 1 := by
  refine ⟨by decide, [[]], rfl, ?_, by simp, ?_⟩
  · intro σ hσ
    simp at hσ
    subst hσ
    exact ⟨⟨by simp [Dict.keys], by simp [Dict.keys, Model.domain?, Dict.get?], by simp [Dict.get?]⟩, by simp⟩
  · intro τ hτ
    refine ⟨[], by simp, fun x => ?_⟩
    cases hx : τ.get? x with
    | none => rfl
    | some v =>
      have := (hτ.keys x).1 (Dict.mem_keys_of_get? hx)
      simp [Model.domain?, Dict.get?] at this

/-- `print_optimization_stats` without the argument `optimal` reports an optimal solution even if there is none at all. -/
theorem C46_optimization : let m : Model := ⟨[("x", ⟨some [1, 2], none⟩)], [⟨0, .expr (.bin .gt (.var "x") (.const 5))⟩], true⟩
    (solveRun exArgs m passive 12 exHeap).1 = [] ∧ (solveRun exArgs m passive 12 exHeap).2.1.interrupt = none ∧
    optStatsText 0 "0.000" none none = "\nFound optimal solution in 0.000 seconds after 0 solve iterations" := by decide

/-- The line about an optimisation: "optimal" if the caller says so, or, if the caller says nothing, when the search was not interrupted; "sub-optimal" in all
other cases; the interruption is always mentioned. -/
theorem C46_optimization_text (count : Nat) (secs : String) (interrupt : Option Interrupt) (optimal : Option Bool) :
    ∃ kind suffix why, optStatsText count secs interrupt optimal =
        "\nFound " ++ kind ++ " solution in " ++ secs ++ " seconds after " ++ toString count ++ " solve iteration" ++ suffix ++ why ∧
      (kind = "optimal" ∧ (optimal = some true ∨ optimal = none ∧ interrupt = none) ∨
       kind = "sub-optimal" ∧ (optimal = some false ∨ optimal = none ∧ interrupt ≠ none)) ∧
      (suffix = "" ∧ count = 1 ∨ suffix = "s" ∧ count ≠ 1) ∧
      (why = "" ∧ interrupt = none ∨ why = " [timeout reached]" ∧ interrupt = some .timeout ∨ why = " [limit reached]" ∧ interrupt = some .limit) := by
  unfold optStatsText
  refine ⟨_, _, _, rfl, ?_, ?_, ?_⟩
  · cases optimal with
    | none => cases interrupt <;> simp
    | some b => cases b <;> simp
  · by_cases h : count = 1 <;> simp [h]
  · cases interrupt with
    | none => simp
    | some i => cases i <;> decide

/-! ## C47: the equation printed -/

theorem replace_char (k d : Char) (s : List Char) : replaceGo [k] [d] 0 s = s.map (fun c => if c = k then d else c) := by
  induction s with
  | nil => rfl
  | cons c s ih =>
    rw [replaceGo]
    by_cases h : c = k
    · simp [h, ih]
    · have : ¬ k = c := fun e => h e.symm
      simp [h, this, ih]

theorem intStr_digit {v : Int} (h : 0 ≤ v ∧ v ≤ 9) : intStr v = [digitChar v.toNat] := by
  unfold intStr natStr
  rw [if_neg (by omega), natStrGo, if_pos (by omega)]
  congr 2
  omega

theorem digitChar_spec {n : Nat} (h : n < 10) : IsDigit (digitChar n) ∧ (digitChar n).toNat = 48 + n ∧ digitChar n = Char.ofNat (48 + n) := by
  have : ∀ n < 10, IsDigit (digitChar n) ∧ (digitChar n).toNat = 48 + n ∧ digitChar n = Char.ofNat (48 + n) := by decide
  exact this n h

/-- The loop over the keys. -/
theorem cryptPrintGo_ok (σ : Subst) (D : Char → Int) (cs : List Char) (hn : cs.Nodup)
    (hg : ∀ c ∈ cs, σ.get? (letterName c) = some (D c) ∧ (0 ≤ D c ∧ D c ≤ 9) ∧ ¬ IsDigit c) (s : List Char) :
    cryptPrintGo σ (cs.map letterName) s = .ok (cs.map (fun c => c :: " = ".toList ++ [digitChar (D c).toNat]),
      s.map (fun c => if c ∈ cs then digitChar (D c).toNat else c)) := by
  induction cs generalizing s with
  | nil => simp [cryptPrintGo]
  | cons k cs ih =>
    obtain ⟨h1, h2, h3⟩ := hg k (by simp)
    rw [List.nodup_cons] at hn
    have hk : (letterName k).toList = [k] := by simp [letterName]
    rw [List.map_cons, cryptPrintGo, Subst.at_ok h1]
    show (do
      let p ← cryptPrintGo σ (cs.map letterName) (replaceGo (letterName k).toList (intStr (D k)) 0 s)
      pure (((letterName k).toList ++ " = ".toList ++ intStr (D k)) :: p.1, p.2) : Res _) = _
    rw [hk, intStr_digit h2, replace_char, ih hn.2 (fun c hc => hg c (by simp [hc]))]
    show Except.ok _ = _
    congr 2
    rw [List.map_map]
    apply List.map_congr_left
    intro c _
    simp only [Function.comp, List.mem_cons]
    by_cases hc : c = k
    · subst hc
      simp only [if_true, true_or]
      rw [if_neg]
      intro hm
      exact (hg _ (List.mem_cons_of_mem _ hm)).2.2 (digitChar_spec (n := (D c).toNat) (by omega)).1
    · simp [hc]

/-- Words after the replacement. -/
theorem text_digits {D : Char → Int} {ρ : Char → Char} {letters : List Char}
    (hρ1 : ∀ c ∈ letters, ρ c = digitChar (D c).toNat ∧ 0 ≤ D c ∧ D c ≤ 9 ∧ ¬ IsDigit c ∧ IsAlnum c) (hρ2 : ∀ c, c ∉ letters → ρ c = c)
    {lv : Nat} {s : List Char} {t : CTree} (ht : CText lv s t) :
    (∀ c ∈ s, c.toUpper = c) → (∀ w ∈ t.words, ∀ c ∈ w, ¬ IsDigit c → c ∈ letters) →
    ∃ t', CText lv (s.map ρ) t' ∧ (∀ w ∈ t'.words, ∀ c ∈ w, IsDigit c) ∧ ∀ d, t'.value d = t.value D := by
  have hop : ∀ c, ¬ IsAlnum c → ρ c = c := by
    intro c hc
    by_cases h : c ∈ letters
    · exact absurd (hρ1 c h).2.2.2.2 hc
    · exact hρ2 c h
  induction ht with
  | @word w hne hal =>
    intro hup hl
    have hw : w.map Char.toUpper = w := by
      conv => rhs; rw [← List.map_id w]
      exact List.map_congr_left hup
    rw [hw] at hl ⊢
    have hdig : ∀ c ∈ w, IsDigit (ρ c) ∧ ∀ d, charVal d (ρ c) = charVal D c := by
      intro c hc
      by_cases hd : IsDigit c
      · have : c ∉ letters := fun h => (hρ1 c h).2.2.2.1 hd
        rw [hρ2 c this]
        refine ⟨hd, fun d => ?_⟩
        unfold charVal; rw [if_pos hd, if_pos hd]
      · have hm := hl w (by simp [CTree.words]) c hc hd
        obtain ⟨h1, h2, h3, _⟩ := hρ1 c hm
        have := digitChar_spec (n := (D c).toNat) (by omega)
        rw [h1]
        refine ⟨this.1, fun d => ?_⟩
        unfold charVal
        rw [if_pos this.1, if_neg hd, this.2.1]
        omega
    have hup2 : (w.map ρ).map Char.toUpper = w.map ρ := by
      conv => rhs; rw [← List.map_id (w.map ρ)]
      refine List.map_congr_left (fun c hc => ?_)
      obtain ⟨c', hc', rfl⟩ := List.mem_map.1 hc
      exact toUpper_dig (hdig c' hc').1
    refine ⟨.word (w.map ρ), ?_, ?_, ?_⟩
    · have : CText 8 (w.map ρ) (.word ((w.map ρ).map Char.toUpper)) := .word (by simpa using hne) (fun c hc => by
        obtain ⟨c', hc', rfl⟩ := List.mem_map.1 hc
        exact .inr (.inr (hdig c' hc').1))
      rwa [hup2] at this
    · intro w' hw' c hc
      simp only [CTree.words, List.mem_singleton] at hw'
      subst hw'
      obtain ⟨c', hc', rfl⟩ := List.mem_map.1 hc
      exact (hdig c' hc').1
    · intro d
      simp only [CTree.value, wordVal, List.foldl_map]
      have : ∀ (w : List Char) (n : Int), (∀ c ∈ w, charVal d (ρ c) = charVal D c) →
          w.foldl (fun n c => 10 * n + charVal d (ρ c)) n = w.foldl (fun n c => 10 * n + charVal D c) n := by
        intro w
        induction w with
        | nil => intro n _; rfl
        | cons c w ih =>
          intro n h
          rw [List.foldl_cons, List.foldl_cons, h c (by simp)]
          exact ih _ (fun c hc => h c (by simp [hc]))
      exact this w 0 (fun c hc => (hdig c hc).2 d)
  | paren _ ih =>
    intro hup hl
    obtain ⟨t', h1, h2, h3⟩ := ih (fun c hc => hup c (by simp [hc])) hl
    refine ⟨t', ?_, h2, h3⟩
    simpa [hop '(' (by decide), hop ')' (by decide)] using CText.paren h1
  | neg _ ih =>
    intro hup hl
    obtain ⟨t', h1, h2, h3⟩ := ih (fun c hc => hup c (by simp [hc])) hl
    refine ⟨.neg t', ?_, h2, fun d => by simp only [CTree.value, h3 d]⟩
    simpa [hop '-' (by decide)] using CText.neg h1
  | mul _ _ ih1 ih2 =>
    intro hup hl
    obtain ⟨t', h1, h2, h3⟩ := ih1 (fun c hc => hup c (by simp [hc])) (fun w hw => hl w (by simp [CTree.words, hw]))
    obtain ⟨u', g1, g2, g3⟩ := ih2 (fun c hc => hup c (by simp [hc])) (fun w hw => hl w (by simp [CTree.words, hw]))
    refine ⟨.mul t' u', ?_, ?_, fun d => by simp only [CTree.value, h3 d, g3 d]⟩
    · simpa [hop '*' (by decide)] using CText.mul h1 g1
    · intro w hw
      exact (List.mem_append.1 hw).elim (h2 w) (g2 w)
  | add _ _ ih1 ih2 =>
    intro hup hl
    obtain ⟨t', h1, h2, h3⟩ := ih1 (fun c hc => hup c (by simp [hc])) (fun w hw => hl w (by simp [CTree.words, hw]))
    obtain ⟨u', g1, g2, g3⟩ := ih2 (fun c hc => hup c (by simp [hc])) (fun w hw => hl w (by simp [CTree.words, hw]))
    refine ⟨.add t' u', ?_, ?_, fun d => by simp only [CTree.value, h3 d, g3 d]⟩
    · simpa [hop '+' (by decide)] using CText.add h1 g1
    · intro w hw
      exact (List.mem_append.1 hw).elim (h2 w) (g2 w)
  | sub _ _ ih1 ih2 =>
    intro hup hl
    obtain ⟨t', h1, h2, h3⟩ := ih1 (fun c hc => hup c (by simp [hc])) (fun w hw => hl w (by simp [CTree.words, hw]))
    obtain ⟨u', g1, g2, g3⟩ := ih2 (fun c hc => hup c (by simp [hc])) (fun w hw => hl w (by simp [CTree.words, hw]))
    refine ⟨.sub t' u', ?_, ?_, fun d => by simp only [CTree.value, h3 d, g3 d]⟩
    · simpa [hop '-' (by decide)] using CText.sub h1 g1
    · intro w hw
      exact (List.mem_append.1 hw).elim (h2 w) (g2 w)
  | factor _ ih =>
    intro hup hl
    obtain ⟨t', h1, h2⟩ := ih hup hl
    exact ⟨t', .factor h1, h2⟩
  | term _ ih =>
    intro hup hl
    obtain ⟨t', h1, h2⟩ := ih hup hl
    exact ⟨t', .term h1, h2⟩
  | blankL _ ih =>
    intro hup hl
    obtain ⟨t', h1, h2⟩ := ih (fun c hc => hup c (by simp [hc])) hl
    refine ⟨t', ?_, h2⟩
    simpa [hop ' ' (by decide)] using CText.blankL h1
  | blankR _ ih =>
    intro hup hl
    obtain ⟨t', h1, h2⟩ := ih (fun c hc => hup c (by simp [hc])) hl
    refine ⟨t', ?_, h2⟩
    simpa [hop ' ' (by decide)] using CText.blankR h1

/-- The words of a text consist of capital letters and digits. -/
theorem text_alnum {lv : Nat} {s : List Char} {t : CTree} (ht : CText lv s t) : ∀ w ∈ t.words, ∀ c ∈ w, isWordChar c = true := by
  obtain ⟨x, toks, ast, hl⟩ := text_done ht
  exact fun w hw => (hl.alnum w hw).2

/-- What the demo should print for a solution, as claimed: the letters in alphabetical order with their digits, and a true equation: the
source with the digits filled in. -/
def PrintsEquation (letters : List Char) (source : List Char) (τ : Subst) : Prop :=
  ∃ (ks : List Char) (D : Char → Nat), ks.Perm letters ∧ ks.Pairwise (fun c c' => c.toNat < c'.toNat) ∧
    (∀ c ∈ letters, τ.get? (letterName c) = some (D c : Int)) ∧
    cryptPrint τ source = .ok (ks.map (fun c => c :: " = ".toList ++ [Char.ofNat (48 + D c)]) ++
      ["==> ".toList ++ withDigits (fun c => if c ∈ letters then some (D c) else none) source]) ∧
    TrueEquation (withDigits (fun c => if c ∈ letters then some (D c) else none) source)

theorem letterName_lt {c c' : Char} (h : letterName c < letterName c') : c.toNat < c'.toNat := by
  have : (letterName c).toList < (letterName c').toList := h
  rw [show (letterName c).toList = [c] by simp [letterName], show (letterName c').toList = [c'] by simp [letterName]] at this
  simp only [List.cons_lt_cons_iff, List.not_lt_nil, and_false, or_false] at this
  exact this

/-- Every letter of a text is in one of its words. -/
theorem text_letters {lv : Nat} {s : List Char} {t : CTree} (ht : CText lv s t) : ∀ c ∈ s, IsAlnum c → ∃ w ∈ t.words, c.toUpper ∈ w := by
  have no : ∀ c ∈ ['(', ')', '-', '*', '+', ' '], ¬ IsAlnum c := by decide
  induction ht with
  | @word w _ _ => intro c hc _; exact ⟨w.map Char.toUpper, by simp [CTree.words], List.mem_map_of_mem hc⟩
  | paren _ ih =>
    intro c hc ha
    simp only [List.cons_append, List.mem_cons, List.mem_append, List.not_mem_nil, or_false] at hc
    rcases hc with rfl | hc | rfl
    · exact absurd ha (no _ (by simp))
    · exact ih c hc ha
    · exact absurd ha (no _ (by simp))
  | neg _ ih =>
    intro c hc ha
    rcases List.mem_cons.1 hc with rfl | hc
    · exact absurd ha (no _ (by simp))
    · exact ih c hc ha
  | mul _ _ ih1 ih2 | add _ _ ih1 ih2 | sub _ _ ih1 ih2 =>
    intro c hc ha
    simp only [List.mem_append, List.mem_cons] at hc
    rcases hc with hc | rfl | hc
    · obtain ⟨w, hw, h⟩ := ih1 c hc ha
      exact ⟨w, by simp [CTree.words, hw], h⟩
    · exact absurd ha (no _ (by simp))
    · obtain ⟨w, hw, h⟩ := ih2 c hc ha
      exact ⟨w, by simp [CTree.words, hw], h⟩
  | factor _ ih => exact ih
  | term _ ih => exact ih
  | blankL _ ih =>
    intro c hc ha
    rcases List.mem_cons.1 hc with rfl | hc
    · exact absurd ha (no _ (by simp))
    · exact ih c hc ha
  | blankR _ ih =>
    intro c hc ha
    simp only [List.mem_append, List.mem_singleton] at hc
    rcases hc with hc | rfl
    · exact ih c hc ha
    · exact absurd ha (no _ (by simp))

/-- What is printed for a solution, for all sources, and when it is a true equation: exactly if the source has no lower case letters, which
are not replaced. -/
def PrintsText (letters : List Char) (source : List Char) (τ : Subst) : Prop :=
  ∃ (ks : List Char) (D : Char → Nat), ks.Perm letters ∧ ks.Pairwise (fun c c' => c.toNat < c'.toNat) ∧
    (∀ c ∈ letters, τ.get? (letterName c) = some (D c : Int)) ∧
    cryptPrint τ source = .ok (ks.map (fun c => c :: " = ".toList ++ [Char.ofNat (48 + D c)]) ++
      ["==> ".toList ++ withDigits (fun c => if c ∈ letters then some (D c) else none) source]) ∧
    (TrueEquation (withDigits (fun c => if c ∈ letters then some (D c) else none) source) ↔ ∀ c ∈ source, ¬ ('a' ≤ c ∧ c ≤ 'z'))

theorem toUpper_lower {c : Char} (h : 'a' ≤ c ∧ c ≤ 'z') : ¬ IsDigit c.toUpper ∧ ¬ ('A' ≤ c ∧ c ≤ 'Z') := by
  have h1 : 97 ≤ c.toNat := h.1
  have h2 : c.toNat ≤ 122 := h.2
  have : ∀ n : Nat, 97 ≤ n → n ≤ 122 → ¬ IsDigit (Char.ofNat n).toUpper ∧ ¬ ('A' ≤ Char.ofNat n ∧ Char.ofNat n ≤ 'Z') := by
    intro n h1 h2
    interval_cases n <;> decide
  have h3 := this c.toNat h1 h2
  rwa [Char.ofNat_toNat] at h3

theorem toUpper_changes {c : Char} (h : 'a' ≤ c ∧ c ≤ 'z') : c.toUpper ≠ c := by
  have h1 : 97 ≤ c.toNat := h.1
  have h2 : c.toNat ≤ 122 := h.2
  have : ∀ n : Nat, 97 ≤ n → n ≤ 122 → (Char.ofNat n).toUpper ≠ Char.ofNat n := by
    intro n h1 h2
    interval_cases n <;> decide
  have h3 := this c.toNat h1 h2
  rwa [Char.ofNat_toNat] at h3

theorem toUpper_other {c : Char} (h : ¬ ('a' ≤ c ∧ c ≤ 'z')) : c.toUpper = c := by
  unfold Char.toUpper
  rw [dif_neg]
  intro hc
  exact h hc

/-- C47 for all sources for which the constructor does not raise TypeError: everything that is printed for a solution, and when it is a true
equation. -/
theorem C47_text (h : Heap) (a : SolveArgs) (hs : ∀ l, (a.shuffle l).Perm l) (ha : a.adds = []) (ord : List Char → List Char)
    (ho : ∀ l, (ord l).Perm l) (source : List Char) (l r : CTree) (hsrc : CSource source l r)
    (hbc : ¬ BothConstant l r) (avoid : Bool) :
    ∃ w letters, cryptBuild ord source avoid ⟨.empty, h⟩ = (w, .ok letters) ∧ (∀ c, c ∈ letters ↔ CLetter l r c) ∧
      ∀ n, ∀ τ ∈ (solveRun a w.model passive n w.heap).1, PrintsText letters source τ := by
  obtain ⟨w, letters, nz, h1, hnd, h2, h3, hb⟩ := crypt_built h ord ho hsrc hbc avoid
  refine ⟨w, letters, h1, h2, fun n τ hτ => ?_⟩
  obtain ⟨hex, hdiff, heq⟩ := hb.sound hs ha n τ hτ
  obtain ⟨s, t, rfl, hs', ht'⟩ := hsrc
  have hword : ∀ c ∈ letters, isCap c = true := by
    intro c hc
    obtain ⟨w, hw, hcw, hd⟩ := (h2 c).1 hc
    have : isWordChar c = true := (List.mem_append.1 hw).elim (fun hw => text_alnum hs' w hw c hcw) (fun hw => text_alnum ht' w hw c hcw)
    rw [← isDig_iff] at hd
    simpa [isWordChar, hd] using this
  have hval : ∀ c ∈ letters, τ.get? (letterName c) = some (val τ (letterName c)) ∧ (0 ≤ val τ (letterName c) ∧ val τ (letterName c) ≤ 9) ∧ ¬ IsDigit c := by
    intro c hc
    obtain ⟨v, hv, hg⟩ := hex.val hc
    rw [val_eq hg]
    obtain ⟨w, hw, hcw, hd⟩ := (h2 c).1 hc
    exact ⟨hg, (mem_letterDom.1 hv).1, hd⟩
  have hnames : (letters.map letterName).Nodup := List.Nodup.map (fun _ _ h => letterName_inj h) hnd
  -- the keys, sorted
  have hperm : (pySorted (fun x y : Name => decide (x < y)) τ.keys).Perm (letters.map letterName) := by
    refine (pySorted_perm _ _).trans ?_
    rw [List.perm_ext_iff_of_nodup hex.nodup hnames]
    intro x
    rw [hex.keys, tabVars_keys]
  obtain ⟨ks, hks, hkp⟩ : ∃ ks : List Char, pySorted (fun x y : Name => decide (x < y)) τ.keys = ks.map letterName ∧ ks.Perm letters := by
    generalize pySorted (fun x y : Name => decide (x < y)) τ.keys = xs at hperm
    have hxs : ∀ x ∈ xs, ∃ c, x = letterName c := fun x hx => by
      obtain ⟨c, _, rfl⟩ := List.mem_map.1 (hperm.mem_iff.1 hx); exact ⟨c, rfl⟩
    have : ∃ ks : List Char, xs = ks.map letterName := by
      clear hperm
      induction xs with
      | nil => exact ⟨[], rfl⟩
      | cons x xs ih =>
        obtain ⟨c, rfl⟩ := hxs x (by simp)
        obtain ⟨ks, rfl⟩ := ih (fun y hy => hxs y (by simp [hy]))
        exact ⟨c :: ks, rfl⟩
    obtain ⟨ks, rfl⟩ := this
    refine ⟨ks, rfl, ?_⟩
    rw [List.perm_ext_iff_of_nodup (List.Nodup.of_map _ (hperm.nodup_iff.2 hnames)) hnd]
    intro c
    constructor
    · intro hc
      obtain ⟨c', hc', he⟩ := List.mem_map.1 (hperm.mem_iff.1 (List.mem_map_of_mem hc))
      exact letterName_inj he ▸ hc'
    · intro hc
      obtain ⟨c', hc', he⟩ := List.mem_map.1 (hperm.mem_iff.2 (List.mem_map_of_mem hc))
      exact letterName_inj he ▸ hc'
  have hkn : ks.Nodup := hkp.nodup_iff.2 hnd
  refine ⟨ks, fun c => (val τ (letterName c)).toNat, hkp, ?_, ?_, ?_, ?_⟩
  · have hsorted := pySorted_sorted (weak_key (fun x : Name => x)) τ.keys
    rw [hks, List.pairwise_map] at hsorted
    refine List.Pairwise.imp_of_mem ?_ (hsorted.and hkn)
    intro c c' _ _ ⟨g1, g2⟩
    have g1 : ¬ letterName c' < letterName c := by simpa using g1
    exact letterName_lt (lt_of_le_of_ne (not_lt.1 g1) (fun e => g2 (letterName_inj e)))
  · intro c hc
    obtain ⟨g1, g2, _⟩ := hval c hc
    rw [g1]
    congr 1
    exact (Int.toNat_of_nonneg g2.1).symm
  · unfold cryptPrint
    rw [hks, cryptPrintGo_ok τ (fun c => val τ (letterName c)) ks hkn (fun c hc => hval c (hkp.mem_iff.1 hc))]
    show Except.ok _ = _
    congr 4
    unfold withDigits
    apply List.map_congr_left
    intro c _
    beta_reduce
    by_cases hc : c ∈ letters
    · have := (hval c hc).2.1
      rw [if_pos (hkp.mem_iff.2 hc), if_pos hc, (digitChar_spec (n := (val τ (letterName c)).toNat) (by omega)).2.2]
    · rw [if_neg (fun h => hc (hkp.mem_iff.1 h)), if_neg hc]
  · constructor
    · rintro ⟨l', r', ⟨s', t', he, hs1, ht1⟩, hno, _⟩ c hc hl
      have hcl : c ∉ letters := fun hm => by
        have := hword c hm
        simp only [isCap, Bool.and_eq_true, decide_eq_true_eq] at this
        exact (toUpper_lower hl).2 this
      have hin : c ∈ s' ++ "==".toList ++ t' := by
        rw [← he]
        exact List.mem_map.2 ⟨c, hc, by simp only [if_neg hcl]⟩
      simp only [List.mem_append] at hin
      rcases hin with (hin | hin) | hin
      · obtain ⟨w', hw', hm⟩ := text_letters hs1 c hin (.inr (.inl hl))
        exact hno _ ⟨w', List.mem_append_left _ hw', hm, (toUpper_lower hl).1⟩
      · have : c = '=' := by simpa using hin
        subst this
        exact absurd hl (by decide)
      · obtain ⟨w', hw', hm⟩ := text_letters ht1 c hin (.inr (.inl hl))
        exact hno _ ⟨w', List.mem_append_right _ hw', hm, (toUpper_lower hl).1⟩
    · intro hlow
      have hup : ∀ c ∈ s ++ "==".toList ++ t, c.toUpper = c := fun c hc => toUpper_other (hlow c hc)
      have hρ1 : ∀ c ∈ letters, (fun c => match (if c ∈ letters then some (val τ (letterName c)).toNat else none) with
          | some n => Char.ofNat (48 + n) | none => c) c = digitChar (val τ (letterName c)).toNat ∧ 0 ≤ val τ (letterName c) ∧
          val τ (letterName c) ≤ 9 ∧ ¬ IsDigit c ∧ IsAlnum c := by
        intro c hc
        obtain ⟨_, g2, g3⟩ := hval c hc
        refine ⟨?_, g2.1, g2.2, g3, ?_⟩
        · simp only [if_pos hc]
          rw [(digitChar_spec (n := (val τ (letterName c)).toNat) (by omega)).2.2]
        · have := hword c hc
          simp only [isCap, Bool.and_eq_true, decide_eq_true_eq] at this
          exact .inl this
      have hρ2 : ∀ c, c ∉ letters → (fun c => match (if c ∈ letters then some (val τ (letterName c)).toNat else none) with
          | some n => Char.ofNat (48 + n) | none => c) c = c := by
        intro c hc
        simp only [if_neg hc]
      obtain ⟨l', a1, a2, a3⟩ := text_digits (D := fun c => val τ (letterName c)) hρ1 hρ2 hs' (fun c hc => hup c (by simp [hc]))
        (fun w hw c hc hd => (h2 c).2 ⟨w, List.mem_append_left _ hw, hc, hd⟩)
      obtain ⟨r', b1, b2, b3⟩ := text_digits (D := fun c => val τ (letterName c)) hρ1 hρ2 ht' (fun c hc => hup c (by simp [hc]))
        (fun w hw c hc hd => (h2 c).2 ⟨w, List.mem_append_right _ hw, hc, hd⟩)
      refine ⟨l', r', ⟨_, _, ?_, a1, b1⟩, ?_, fun d => by rw [a3, b3, heq]⟩
      · unfold withDigits
        rw [List.map_append, List.map_append]
        congr 2
        have : '=' ∉ letters := fun hc => by have := hword _ hc; revert this; decide
        simp [this]
      · rintro c ⟨w, hw, hc, hd⟩
        exact hd ((List.mem_append.1 hw).elim (fun hw => a2 w hw c hc) (fun hw => b2 w hw c hc))

/-- C47 for sources in capital letters. Missing from the full claim: sources with lower case letters (`C47_refuted`), and sources for which the
constructor raises TypeError because the letters of both sides disappear (`C41_type_error`). -/
theorem C47_partial (h : Heap) (a : SolveArgs) (hs : ∀ l, (a.shuffle l).Perm l) (ha : a.adds = []) (ord : List Char → List Char)
    (ho : ∀ l, (ord l).Perm l) (source : List Char) (l r : CTree) (hsrc : CSource source l r) (hup : ∀ c ∈ source, c.toUpper = c)
    (hbc : ¬ BothConstant l r) (avoid : Bool) :
    ∃ w letters, cryptBuild ord source avoid ⟨.empty, h⟩ = (w, .ok letters) ∧ (∀ c, c ∈ letters ↔ CLetter l r c) ∧
      ∀ n, ∀ τ ∈ (solveRun a w.model passive n w.heap).1, PrintsEquation letters source τ := by
  obtain ⟨w, letters, h1, h2, h3⟩ := C47_text h a hs ha ord ho source l r hsrc hbc avoid
  refine ⟨w, letters, h1, h2, fun n τ hτ => ?_⟩
  obtain ⟨ks, D, g1, g2, g3, g4, g5⟩ := h3 n τ hτ
  exact ⟨ks, D, g1, g2, g3, g4, g5.2 (fun c hc hl => (toUpper_changes hl) (hup c hc))⟩

/-- A case: the hypotheses hold for `AB==BA+9`, and this is what is printed. -/
theorem source_AB : CSource "AB==BA+9".toList (.word ['A', 'B']) (.add (.word ['B', 'A']) (.word ['9'])) :=
  ⟨"AB".toList, "BA+9".toList, rfl, .term (.factor (.word (w := ['A', 'B']) (by simp) (by decide))),
    .add (s := ['B', 'A']) (.term (.factor (.word (w := ['B', 'A']) (by simp) (by decide)))) (.factor (.word (w := ['9']) (by simp) (by decide)))⟩

example := C47_partial heap0 { solver := {} } (fun l => .refl _) rfl id (fun l => .refl _) _ _ _ source_AB (by decide)
  (by rintro ⟨⟨m, hm⟩, _⟩; simp [CTree.folded, IsDigit] at hm) true

example : cryptPrint [("B", 1), ("A", 2)] "AB==BA+9".toList =
    .ok ["A = 2".toList, "B = 1".toList, "==> 21==12+9".toList] := by decide

-- mixed case: the letters of `ab` are not replaced
example := C47_text heap0 { solver := {} } (fun l => .refl _) rfl id (fun l => .refl _) "ab==BA+9".toList (.word ['A', 'B']) (.add (.word ['B', 'A']) (.word ['9']))
  ⟨"ab".toList, "BA+9".toList, rfl, .term (.factor (.word (w := ['a', 'b']) (by simp) (by decide))),
    .add (s := ['B', 'A']) (.term (.factor (.word (w := ['B', 'A']) (by simp) (by decide)))) (.factor (.word (w := ['9']) (by simp) (by decide)))⟩
  (by rintro ⟨⟨m, hm⟩, _⟩; simp [CTree.folded, IsDigit] at hm) true

example : cryptPrint [("B", 1), ("A", 2)] "ab==BA+9".toList =
    .ok ["A = 2".toList, "B = 1".toList, "==> ab==12+9".toList] := by decide

/-- The full claim: the equation printed for a solution is true. -/
def C47 : Prop := ∀ (a : SolveArgs), (∀ l, (a.shuffle l).Perm l) → a.adds = [] →
  ∀ (source : List Char) (l r : CTree), CSource source l r → ∀ avoid : Bool,
    ∃ w letters, cryptBuild id source avoid ⟨.empty, heap0⟩ = (w, .ok letters) ∧
      ∀ n, ∀ τ ∈ (solveRun a w.model passive n w.heap).1, ∃ ls eq, cryptPrint τ source = .ok (ls ++ ["==> ".toList ++ eq]) ∧ TrueEquation eq

theorem source_a1 : CSource "a==1".toList (.word ['A']) (.word ['1']) :=
  ⟨['a'], ['1'], rfl, .term (.factor (.word (w := ['a']) (by simp) (by decide))), .term (.factor (.word (w := ['1']) (by simp) (by decide)))⟩

/-- `a==1`: the solution is `A = 1`, and the equation is printed as it is, with the letter. -/
theorem C47_refuted : ¬ C47 := by
  intro hc
  obtain ⟨w, letters, h1, h2⟩ := hc { solver := {} } (fun l => .refl _) rfl _ _ _ source_a1 true
  have hw : (cryptBuild id "a==1".toList true ⟨.empty, heap0⟩).1 = w := by rw [h1]
  have hrun : (solveRun { solver := {} } w.model passive 4 w.heap).1 = [[("A", 1)]] := by rw [← hw]; decide +kernel
  obtain ⟨ls, eq, h3, l, r, ⟨s, t, he, hs, ht⟩, hno, _⟩ := h2 4 _ (by rw [hrun]; exact List.mem_singleton.2 rfl)
  have h3' : cryptPrint [("A", 1)] "a==1".toList = .ok (["A = 1".toList] ++ ["==> ".toList ++ "a==1".toList]) := by decide
  rw [h3'] at h3
  have h3 := Except.ok.inj h3
  obtain ⟨_, h4⟩ := List.append_inj' h3 (by simp)
  have h5 : "a==1".toList = eq := List.append_cancel_left (List.cons.inj h4).1
  have ha : 'a' ∈ s ++ "==".toList ++ t := by rw [← he, ← h5]; decide
  simp only [List.mem_append] at ha
  rcases ha with (ha | ha) | ha
  · obtain ⟨w, hw, h⟩ := text_letters hs 'a' ha (by decide)
    exact hno 'A' ⟨w, List.mem_append_left _ hw, h, by decide⟩
  · revert ha; decide
  · obtain ⟨w, hw, h⟩ := text_letters ht 'a' ha (by decide)
    exact hno 'A' ⟨w, List.mem_append_right _ hw, h, by decide⟩

end Satisfy.Props
