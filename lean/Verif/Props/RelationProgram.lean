import Verif.Props.Relation
import Verif.Props.Trivial
/-!
# The cryptarithm program with other comparisons: C77
-/

namespace Satisfy.Props
open Satisfy

/-- What is printed for a solution: the digits of the letters, sorted, then the text with the digits. -/
def DigitLines (letters source : List Char) (L : List (Char × Int)) (lines : List (List Char)) : Prop :=
  ∃ (ks : List Char) (D : Char → Nat), ks.Perm letters ∧ ks.Pairwise (fun c c' => c.toNat < c'.toNat) ∧ (∀ c v, (c, v) ∈ L → v = D c) ∧
    lines = ks.map (fun c => c :: " = ".toList ++ [Char.ofNat (48 + D c)]) ++
      ["==> ".toList ++ withDigits (fun c => if c ∈ letters then some (D c) else none) source]

theorem digitLines_unique {letters source : List Char} {L : List (Char × Int)} (hL : L.map Prod.fst = letters) {ls ls' : List (List Char)}
    (h : DigitLines letters source L ls) (h' : DigitLines letters source L ls') : ls = ls' := by
  obtain ⟨ks, D, h1, h2, h3, rfl⟩ := h
  obtain ⟨ks', D', h1', h2', h3', rfl⟩ := h'
  have hks : ks = ks' := (h1.trans h1'.symm).eq_of_pairwise (fun c c' _ _ h h' => by omega) h2 h2'
  subst hks
  have hD : ∀ c ∈ letters, D c = D' c := by
    intro c hc
    rw [← hL] at hc
    obtain ⟨⟨_, v⟩, hm, rfl⟩ := List.mem_map.1 hc
    have := (h3 _ _ hm).symm.trans (h3' _ _ hm)
    exact_mod_cast this
  congr 1
  · exact List.map_congr_left (fun c hc => by rw [hD c (h1.subset hc)])
  · have : (fun c => if c ∈ letters then some (D c) else none) = (fun c => if c ∈ letters then some (D' c) else none) := by
      funext c
      by_cases hc : c ∈ letters
      · rw [if_pos hc, if_pos hc, hD c hc]
      · rw [if_neg hc, if_neg hc]
    rw [this]

theorem digit_print {letters nz : List Char} (hnd : letters.Nodup) (hcap : ∀ c ∈ letters, isCap c = true) {τ : Subst}
    (hex : Exact (tabVars letters letterName (letterDom nz)) τ) (source : List Char) :
    ∃ (ks : List Char) (D : Char → Nat), ks.Perm letters ∧ ks.Pairwise (fun c c' => c.toNat < c'.toNat) ∧
      (∀ c ∈ letters, τ.get? (letterName c) = some (D c : Int)) ∧
      cryptPrint τ source = .ok (ks.map (fun c => c :: " = ".toList ++ [Char.ofNat (48 + D c)]) ++
        ["==> ".toList ++ withDigits (fun c => if c ∈ letters then some (D c) else none) source]) := by
  have hval : ∀ c ∈ letters, τ.get? (letterName c) = some (val τ (letterName c)) ∧ (0 ≤ val τ (letterName c) ∧ val τ (letterName c) ≤ 9) ∧ ¬ IsDigit c := by
    intro c hc
    obtain ⟨v, hv, hg⟩ := hex.val hc
    rw [val_eq hg]
    refine ⟨hg, (mem_letterDom.1 hv).1, ?_⟩
    rw [← isDig_iff]
    exact fun h => by rw [(cap_facts (hcap c hc)).2.1] at h; cases h
  have hnames : (letters.map letterName).Nodup := List.Nodup.map (fun _ _ h => letterName_inj h) hnd
  -- the keys, sorted
  have hperm : (pySorted (fun x y : Name => decide (x < y)) τ.keys).Perm (letters.map letterName) := by
    refine (pySorted_perm _ _).trans ?_
    rw [List.perm_ext_iff_of_nodup hex.nodup hnames]
    intro x
    rw [hex.keys, tabVars_keys]
  obtain ⟨ks, hks, hkp⟩ : ∃ ks : List Char, pySorted (fun x y : Name => decide (x < y)) τ.keys = ks.map letterName ∧ ks.Perm letters := by
    generalize pySorted (fun x y : Name => decide (x < y)) τ.keys = xs at hperm
    have hxs : ∀ x ∈ xs, ∃ c, x = letterName c := fun x hx => by
      obtain ⟨c, _, rfl⟩ := List.mem_map.1 (hperm.mem_iff.1 hx); exact ⟨c, rfl⟩
    have : ∃ ks : List Char, xs = ks.map letterName := by
      clear hperm
      induction xs with
      | nil => exact ⟨[], rfl⟩
      | cons x xs ih =>
        obtain ⟨c, rfl⟩ := hxs x (by simp)
        obtain ⟨ks, rfl⟩ := ih (fun y hy => hxs y (by simp [hy]))
        exact ⟨c :: ks, rfl⟩
    obtain ⟨ks, rfl⟩ := this
    refine ⟨ks, rfl, ?_⟩
    rw [List.perm_ext_iff_of_nodup (List.Nodup.of_map _ (hperm.nodup_iff.2 hnames)) hnd]
    intro c
    constructor
    · intro hc
      obtain ⟨c', hc', he⟩ := List.mem_map.1 (hperm.mem_iff.1 (List.mem_map_of_mem hc))
      exact letterName_inj he ▸ hc'
    · intro hc
      obtain ⟨c', hc', he⟩ := List.mem_map.1 (hperm.mem_iff.2 (List.mem_map_of_mem hc))
      exact letterName_inj he ▸ hc'
  have hkn : ks.Nodup := hkp.nodup_iff.2 hnd
  refine ⟨ks, fun c => (val τ (letterName c)).toNat, hkp, ?_, ?_, ?_⟩
  · have hsorted := pySorted_sorted (weak_key (fun x : Name => x)) τ.keys
    rw [hks, List.pairwise_map] at hsorted
    refine List.Pairwise.imp_of_mem ?_ (hsorted.and hkn)
    intro c c' _ _ ⟨g1, g2⟩
    have g1 : ¬ letterName c' < letterName c := by simpa using g1
    exact letterName_lt (lt_of_le_of_ne (not_lt.1 g1) (fun e => g2 (letterName_inj e)))
  · intro c hc
    obtain ⟨g1, g2, _⟩ := hval c hc
    rw [g1]
    congr 1
    exact (Int.toNat_of_nonneg g2.1).symm
  · unfold cryptPrint
    rw [hks, cryptPrintGo_ok τ (fun c => val τ (letterName c)) ks hkn (fun c hc => hval c (hkp.mem_iff.1 hc))]
    show Except.ok _ = _
    congr 4
    unfold withDigits
    apply List.map_congr_left
    intro c _
    beta_reduce
    by_cases hc : c ∈ letters
    · have := (hval c hc).2.1
      rw [if_pos (hkp.mem_iff.2 hc), if_pos hc, (digitChar_spec (n := (val τ (letterName c)).toNat) (by omega)).2.2]
    · rw [if_neg (fun h => hc (hkp.mem_iff.1 h)), if_neg hc]

/-- The cryptarithm demo, once the model is built. -/
theorem digit_demo (m : Machine) (hs : ∀ l, (m.shuffle l).Perm l) {ρ : Store} {source : List Char} {w : World} {letters nz : List Char}
    {ws : List (List Char)} {P : (Char → Int) → Prop} (hnd : letters.Nodup) (h2 : ∀ c, c ∈ letters ↔ ∃ w ∈ ws, c ∈ w ∧ ¬ IsDigit c)
    (h3 : ∀ c, c ∈ nz ↔ ∃ w ∈ ws, w.head? = some c ∧ ¬ IsDigit c) (hcap : ∀ c ∈ letters, isCap c = true)
    (hP : ∀ d d' : Char → Int, (∀ w ∈ ws, ∀ c ∈ w, ¬ IsDigit c → d c = d' c) → P d → P d') (hne : ∃ c, c ∈ letters)
    (hb : Built ρ w (tabVars letters letterName (letterDom nz)) (fun σ =>
        (∀ c ∈ letters, ∀ c' ∈ letters, c ≠ c' → val σ (letterName c) ≠ val σ (letterName c')) ∧ P (fun c => val σ (letterName c))))
    (limit timeout : ArgVal) (shown : Bool) :
    ModelShown (fun o => ∃ d, o = .tuple d) shown w.model (showModel (.bool shown) .tuple w.model) ∧
      ∃ N, ∀ n ≥ N, ∃ lines,
        demoRun m.fmt (fun τ => cryptPrint τ source) (puzzleRun (m.solveArgs .minBound timeout limit) w .ok) n = .ok lines ∧
        Report m.fmt (SolvesFor ws letters P) (DigitLines letters source) limit timeout lines := by
  let a := m.solveArgs .minBound timeout limit
  have free : ∀ a : SolveArgs, (∀ l, (a.shuffle l).Perm l) → a.adds = [] → PuzzleRun a (puzzleRun a w (cryptDecode letters)) (SolvesFor ws letters P) :=
    fun a hs ha => links_puzzle a hs ha hnd h2 h3 hP hne hb
  refine ⟨model_shown hb (fun p _ => ⟨rfl, _, rfl⟩) shown, ?_⟩
  classical
  have key : ∀ a : SolveArgs, (∀ l, (a.shuffle l).Perm l) → a.adds = [] → ∀ n, ∀ τ ∈ (solveRun a w.model passive n w.heap).1, ∃ b ls,
      cryptDecode letters τ = .ok b ∧ b.map Prod.fst = letters ∧ DigitLines letters source b ls ∧ cryptPrint τ source = .ok ls := by
    intro a hs ha n τ hτ
    obtain ⟨ks, D, p1, p2, p3, p4⟩ := digit_print hnd hcap (hb.sound hs ha n τ hτ).1 source
    have hd : cryptDecode letters τ = .ok (letters.map (fun c => (c, (D c : Int)))) :=
      Res.each_ok (g := fun c => (c, (D c : Int))) (fun c hc => by rw [Subst.at_ok (p3 c hc)]; rfl)
    refine ⟨_, _, hd, by simp [Function.comp_def], ⟨ks, D, p1, p2, fun c v hm => ?_, rfl⟩, p4⟩
    obtain ⟨c', _, e⟩ := List.mem_map.1 hm
    cases e; rfl
  let pr' : List (Char × Int) → Res (List (List Char)) := fun b => if hx : ∃ ls, DigitLines letters source b ls then .ok hx.choose else .error .keyError
  have hpr' : ∀ b ls, b.map Prod.fst = letters → DigitLines letters source b ls → pr' b = .ok ls := by
    intro b ls hb hls
    have hx : ∃ ls, DigitLines letters source b ls := ⟨ls, hls⟩
    simp only [pr', dif_pos hx]
    rw [digitLines_unique hb hx.choose_spec hls]
  have hdemo : ∀ n, demoRun m.fmt (fun τ => cryptPrint τ source) (puzzleRun a w .ok) n = demoRun m.fmt pr' (puzzleRun a w (cryptDecode letters)) n := by
    intro n
    refine demoRun_decoded m.fmt (fun τ hτ => ?_)
    obtain ⟨b, ls, k1, k2, k3, k4⟩ := key a hs rfl n τ hτ
    exact ⟨b, k1, by rw [k4, hpr' b ls k2 k3]⟩
  -- without limit and timeout every solution is printed
  have hall : ∀ b, SolvesFor ws letters P b → ∃ ls, pr' b = .ok ls ∧ DigitLines letters source b ls := by
    intro b hsol
    let a0 : SolveArgs := { solver := {} }
    obtain ⟨N, hN⟩ := (free a0 (fun l => .refl _) rfl).complete
    obtain ⟨L, hL, _, hc⟩ := hN N (Nat.le_refl N)
    have hmem : b ∈ L := by
      rcases hc with ⟨_, hall⟩ | ⟨_, l, hl, _⟩ | ⟨_, ht⟩
      · exact (hall b).2 hsol
      · cases hl
      · cases ht
    obtain ⟨τ, hτ, hd⟩ := forall₂_left (Res.each_forall.1 hL) hmem
    obtain ⟨b', ls, k1, k2, k3, _⟩ := key a0 (fun l => .refl _) rfl N τ hτ
    rw [hd] at k1; cases k1
    exact ⟨ls, hpr' b ls k2 k3, k3⟩
  obtain ⟨N, hN⟩ := report m hs .minBound timeout limit (by rw [hb.keys]; exact hb.nodup) (free a hs rfl) pr' (fun b hb => (hall b hb).imp fun _ h => h.1)
  refine ⟨N, fun n hn => ?_⟩
  obtain ⟨lines, h5, h6⟩ := hN n hn
  refine ⟨lines, by rw [← h5]; exact hdemo n, h6.mono (fun b hb ls hls => ?_)⟩
  obtain ⟨ls', k1, k2⟩ := hall b hb
  rw [k1] at hls
  cases hls
  exact k2

/-- `satisfy cryptarithm SOURCE` for a chain of comparisons: the source, with `-s` the listing of the model, then the report about the solutions of
its decisive comparison. -/
theorem C77_program (m : Machine) (hs : ∀ l, (m.shuffle l).Perm l) (ho : ∀ l, (m.ord l).Perm l) {pre post : List Piece}
    {before after : List (List Char)} (hw : Written pre before) (hw' : Written post after) (hb : ∀ p ∈ pre ++ post, p.Belongs .cryptarithm)
    (hp : ∀ p ∈ pre ++ post, ∀ t ∈ p.texts, PlainArg t) (hm : ∀ p ∈ pre ++ post, ∃ v, Means m.outside p v) {source : List Char} (hplain : PlainArg source)
    (hlast : ∀ p, pre.getLast? = some p → ¬ p.Bare) {limit timeout : ArgVal} {shown : Bool}
    (hlimit : Asked m.outside (pre ++ post) .limit limit) (htimeout : Asked m.outside (pre ++ post) .timeout timeout)
    (hshown : Asked m.outside (pre ++ post) .showModel (.bool shown)) {t : CTree} {rest : List (CRel × CTree)} (hsrc : CLinks source t rest)
    {l : CTree} {q : CRel} {r : CTree} (hdec : Decisive t rest l q r) (hne : ∃ w ∈ linkWords t rest, ∃ c ∈ w, ¬ IsDigit c) (hbc : ¬ BothConstant l r) :
    ∃ w letters avoid front, cryptBuild m.ord source avoid ⟨.empty, m.heap⟩ = (w, .ok letters) ∧ letters.Nodup ∧
      (∀ c, c ∈ letters ↔ ∃ w ∈ linkWords t rest, c ∈ w ∧ ¬ IsDigit c) ∧ ModelShown (fun o => ∃ d, o = .tuple d) shown w.model front ∧
      ∃ N, ∀ n ≥ N, ∃ lines, program m ("cryptarithm".toList :: before ++ source :: after) n = .text (source ++ "\n".toList ++ front ++ unlines lines) ∧
        Report m.fmt (SolvesFor (linkWords t rest) letters (fun d => q.Holds (l.value d) (r.value d))) (DigitLines letters source) limit timeout lines := by
  obtain ⟨kw, hcall, hkeys, hsource, hkw⟩ := C73_source (o := m.outside) hw hw' hb hp hm hplain hlast
  have arg : ∀ d ∈ Command.cryptarithm.parameters, d ≠ .source → ∀ v, Asked m.outside (pre ++ post) d v → kwarg kw d = v := fun d hd hne v hv =>
    asked_unique (hkw d _ (kwarg_mem (by rw [hkeys]; exact hd)) hne) hv
  have e1 : kwarg kw .source = .text source := by
    have h1 := kwarg_mem (kw := kw) (d := .source) (by rw [hkeys]; decide)
    have hnd : (kw.map Prod.fst).Nodup := by rw [hkeys]; decide
    exact congrArg Prod.snd (List.inj_on_of_nodup_map hnd h1 hsource rfl)
  have e2 := arg .limit (by decide) (by decide) _ hlimit
  have e3 := arg .timeout (by decide) (by decide) _ htimeout
  have e4 := arg .showModel (by decide) (by decide) _ hshown
  obtain ⟨w, letters, nz, h1, h2, h3, h3', hcap, hbu⟩ := links_built m.heap m.ord ho hsrc hdec hbc (decide (kwarg kw .avoidLeadingZeros = .bool true))
  obtain ⟨h4, N, hN⟩ := digit_demo m hs (source := source) h2 h3 h3' hcap (decisive_congr hdec)
    (by obtain ⟨w, hw, c, hc, hd⟩ := hne; exact ⟨c, (h3 c).2 ⟨w, hw, hc, hd⟩⟩) hbu limit timeout shown
  refine ⟨w, letters, _, _, h1, h2, h3, h4, N, fun n hn => ?_⟩
  obtain ⟨lines, h5, h6⟩ := hN n hn
  refine ⟨lines, ?_, h6⟩
  unfold program
  rw [show mainCall m.outside ("cryptarithm".toList :: before ++ source :: after) = .call .cryptarithm kw from hcall]
  simp only [e1, e2, e3, e4, cryptarithmDemo, h1, h5, printed, unlines]
  rfl

/-- … and for a text with letters, but no comparison: the report about the digits for which it is not 0. -/
theorem C77_program_bare (m : Machine) (hs : ∀ l, (m.shuffle l).Perm l) (ho : ∀ l, (m.ord l).Perm l) {pre post : List Piece}
    {before after : List (List Char)} (hw : Written pre before) (hw' : Written post after) (hb : ∀ p ∈ pre ++ post, p.Belongs .cryptarithm)
    (hp : ∀ p ∈ pre ++ post, ∀ t ∈ p.texts, PlainArg t) (hm : ∀ p ∈ pre ++ post, ∃ v, Means m.outside p v) {source : List Char} (hplain : PlainArg source)
    (hlast : ∀ p, pre.getLast? = some p → ¬ p.Bare) {limit timeout : ArgVal} {shown : Bool}
    (hlimit : Asked m.outside (pre ++ post) .limit limit) (htimeout : Asked m.outside (pre ++ post) .timeout timeout)
    (hshown : Asked m.outside (pre ++ post) .showModel (.bool shown)) {t : CTree} (hsrc : CText 6 source t)
    (hne : ∃ w ∈ t.words, ∃ c ∈ w, ¬ IsDigit c) :
    ∃ w letters avoid front, cryptBuild m.ord source avoid ⟨.empty, m.heap⟩ = (w, .ok letters) ∧ letters.Nodup ∧
      (∀ c, c ∈ letters ↔ ∃ w ∈ t.words, c ∈ w ∧ ¬ IsDigit c) ∧ ModelShown (fun o => ∃ d, o = .tuple d) shown w.model front ∧
      ∃ N, ∀ n ≥ N, ∃ lines, program m ("cryptarithm".toList :: before ++ source :: after) n = .text (source ++ "\n".toList ++ front ++ unlines lines) ∧
        Report m.fmt (SolvesFor t.words letters (fun d => t.value d ≠ 0)) (DigitLines letters source) limit timeout lines := by
  obtain ⟨kw, hcall, hkeys, hsource, hkw⟩ := C73_source (o := m.outside) hw hw' hb hp hm hplain hlast
  have arg : ∀ d ∈ Command.cryptarithm.parameters, d ≠ .source → ∀ v, Asked m.outside (pre ++ post) d v → kwarg kw d = v := fun d hd hne v hv =>
    asked_unique (hkw d _ (kwarg_mem (by rw [hkeys]; exact hd)) hne) hv
  have e1 : kwarg kw .source = .text source := by
    have h1 := kwarg_mem (kw := kw) (d := .source) (by rw [hkeys]; decide)
    have hnd : (kw.map Prod.fst).Nodup := by rw [hkeys]; decide
    exact congrArg Prod.snd (List.inj_on_of_nodup_map hnd h1 hsource rfl)
  have e2 := arg .limit (by decide) (by decide) _ hlimit
  have e3 := arg .timeout (by decide) (by decide) _ htimeout
  have e4 := arg .showModel (by decide) (by decide) _ hshown
  obtain ⟨w, letters, nz, h1, h2, h3, h3', hcap, hbu⟩ := bare_built m.heap m.ord ho hsrc hne (decide (kwarg kw .avoidLeadingZeros = .bool true))
  obtain ⟨h4, N, hN⟩ := digit_demo m hs (source := source) (P := fun d => t.value d ≠ 0) h2 h3 h3' hcap (fun d d' hd h => by rwa [← value_congr t hd])
    (by obtain ⟨w, hw, c, hc, hd⟩ := hne; exact ⟨c, (h3 c).2 ⟨w, hw, hc, hd⟩⟩) hbu limit timeout shown
  refine ⟨w, letters, _, _, h1, h2, h3, h4, N, fun n hn => ?_⟩
  obtain ⟨lines, h5, h6⟩ := hN n hn
  refine ⟨lines, ?_, h6⟩
  unfold program
  rw [show mainCall m.outside ("cryptarithm".toList :: before ++ source :: after) = .call .cryptarithm kw from hcall]
  simp only [e1, e2, e3, e4, cryptarithmDemo, h1, h5, printed, unlines]
  rfl

/-- … and the exception, if the decisive comparison is between two constants. -/
theorem C77_program_constant (m : Machine) (ho : ∀ l, (m.ord l).Perm l) {pre post : List Piece}
    {before after : List (List Char)} (hw : Written pre before) (hw' : Written post after) (hb : ∀ p ∈ pre ++ post, p.Belongs .cryptarithm)
    (hp : ∀ p ∈ pre ++ post, ∀ t ∈ p.texts, PlainArg t) (hm : ∀ p ∈ pre ++ post, ∃ v, Means m.outside p v) {source : List Char} (hplain : PlainArg source)
    (hlast : ∀ p, pre.getLast? = some p → ¬ p.Bare) {t : CTree} {rest : List (CRel × CTree)} (hsrc : CLinks source t rest)
    {l : CTree} {q : CRel} {r : CTree} (hdec : Decisive t rest l q r) (hbc : BothConstant l r) (n : Nat) :
    program m ("cryptarithm".toList :: before ++ source :: after) n = .raised .typeError := by
  obtain ⟨kw, hcall, e1, _⟩ := source_call (m := m) hw hw' hb hp hm hplain hlast
  obtain ⟨w, h1⟩ := C77_type_error m.heap m.ord ho source t rest hsrc l q r hdec hbc (decide (kwarg kw .avoidLeadingZeros = .bool true))
  unfold program
  rw [show mainCall m.outside ("cryptarithm".toList :: before ++ source :: after) = .call .cryptarithm kw from hcall]
  simp only [e1, cryptarithmDemo, h1]

/-- … and for a text that is a number. -/
theorem C77_program_number (m : Machine) (ho : ∀ l, (m.ord l).Perm l) {pre post : List Piece}
    {before after : List (List Char)} (hw : Written pre before) (hw' : Written post after) (hb : ∀ p ∈ pre ++ post, p.Belongs .cryptarithm)
    (hp : ∀ p ∈ pre ++ post, ∀ t ∈ p.texts, PlainArg t) (hm : ∀ p ∈ pre ++ post, ∃ v, Means m.outside p v) {source : List Char} (hplain : PlainArg source)
    (hlast : ∀ p, pre.getLast? = some p → ¬ p.Bare) {t : CTree} (hsrc : CText 6 source t) (hne : ∀ w ∈ t.words, ∀ c ∈ w, IsDigit c) (n : Nat) :
    program m ("cryptarithm".toList :: before ++ source :: after) n = .raised .typeError := by
  obtain ⟨kw, hcall, e1, _⟩ := source_call (m := m) hw hw' hb hp hm hplain hlast
  obtain ⟨w, h1⟩ := C77_bare_number m.heap m.ord ho source t hsrc hne (decide (kwarg kw .avoidLeadingZeros = .bool true))
  unfold program
  rw [show mainCall m.outside ("cryptarithm".toList :: before ++ source :: after) = .call .cryptarithm kw from hcall]
  simp only [e1, cryptarithmDemo, h1]

/-- `satisfy cryptarithm 3<A<5` -/
example : ∃ w letters avoid front, cryptBuild exMachine.ord "3<A<5".toList avoid ⟨.empty, exMachine.heap⟩ = (w, .ok letters) ∧ letters.Nodup ∧
      (∀ c, c ∈ letters ↔ ∃ w ∈ linkWords (.word ['3']) [(.lt, .word ['A']), (.lt, .word ['5'])], c ∈ w ∧ ¬ IsDigit c) ∧
      ModelShown (fun o => ∃ d, o = .tuple d) false w.model front ∧
      ∃ N, ∀ n ≥ N, ∃ lines, program exMachine ["cryptarithm".toList, "3<A<5".toList] n = .text ("3<A<5".toList ++ "\n".toList ++ front ++ unlines lines) ∧
        Report exMachine.fmt (SolvesFor (linkWords (.word ['3']) [(.lt, .word ['A']), (.lt, .word ['5'])]) letters
          (fun d => CRel.lt.Holds ((CTree.word ['A']).value d) ((CTree.word ['5']).value d))) (DigitLines letters "3<A<5".toList) .none .none lines :=
  C77_program exMachine (fun _ => .refl _) (fun _ => .refl _) (pre := []) (post := []) .nil .nil (by simp) (by simp) (by simp)
    (by unfold PlainArg; decide) (by simp) (.inr ⟨by decide, rfl⟩) (.inr ⟨by decide, rfl⟩) (.inr ⟨by decide, rfl⟩) source_3A5 decisive_3A5
    ⟨['A'], by decide, 'A', by decide, by decide⟩ (by rintro ⟨⟨m, hm⟩, _⟩; simp [CTree.folded, IsDigit] at hm)

end Satisfy.Props
