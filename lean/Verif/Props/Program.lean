import Verif.Program
import Verif.SpecListing
import Verif.Props.CommandLine
import Verif.Props.Transcripts
/-!
# The program, from its arguments to its output: C74
-/

namespace Satisfy.Props
open Satisfy

/-! ## What the options ask for is determined -/

theorem means_unique {o : Outside} {p : Piece} {v v' : ArgVal} (h : Means o p v) (h' : Means o p v') : v = v' := by
  have := take_of_means h
  rw [take_of_means h'] at this
  cases this
  rfl

theorem last_unique {ps : List Piece} {d : Dest} {pre post pre' post' : List Piece} {p p' : Piece} (h : ps = pre ++ p :: post) (hd : p.about = d)
    (hl : ∀ q ∈ post, q.about ≠ d) (h' : ps = pre' ++ p' :: post') (hd' : p'.about = d) (hl' : ∀ q ∈ post', q.about ≠ d) : p = p' := by
  have e := h.symm.trans h'
  rcases List.append_eq_append_iff.1 e with ⟨a, _, h2⟩ | ⟨a, _, h2⟩
  · cases a with
    | nil => simp only [List.nil_append, List.cons.injEq] at h2; exact h2.1
    | cons x a =>
      simp only [List.cons_append, List.cons.injEq] at h2
      exact absurd hd' (hl p' (by rw [h2.2]; simp))
  · cases a with
    | nil => simp only [List.nil_append, List.cons.injEq] at h2; exact h2.1.symm
    | cons x a =>
      simp only [List.cons_append, List.cons.injEq] at h2
      exact absurd hd (hl' p (by rw [h2.2]; simp))

theorem asked_unique {o : Outside} {ps : List Piece} {d : Dest} {v v' : ArgVal} (h : Asked o ps d v) (h' : Asked o ps d v') : v = v' := by
  rcases h with ⟨pre, p, post, h1, h2, h3, h4⟩ | ⟨h1, h2⟩ <;> rcases h' with ⟨pre', p', post', h1', h2', h3', h4'⟩ | ⟨h1', h2'⟩
  · have := last_unique h1 h2 h4 h1' h2' h4'
    subst this
    exact means_unique h3 h3'
  · exact absurd h2 (h1' p (by rw [h1]; simp))
  · exact absurd h2' (h1 p' (by rw [h1']; simp))
  · rw [h2, h2']

theorem kwarg_mem {kw : List (Dest × ArgVal)} {d : Dest} (h : d ∈ kw.map Prod.fst) : (d, kwarg kw d) ∈ kw := by
  induction kw with
  | nil => cases h
  | cons p kw ih =>
    obtain ⟨d', v⟩ := p
    by_cases hd : d' = d
    · subst hd; simp [kwarg, aget]
    · have : kwarg ((d', v) :: kw) d = kwarg kw d := by simp [kwarg, aget, hd]
      rw [this]
      refine List.mem_cons_of_mem _ (ih ?_)
      rcases List.mem_cons.1 h with h | h
      · exact absurd h.symm hd
      · exact h

/-! ## The report -/

/-- Specification: the lines from the first solution on, for a puzzle with the solutions `V`, each shown as `shows` says, if the options ask for the limit `limit` and the timeout
`timeout`. The solutions are numbered from 1, none is shown twice, and the last line is right: "unique" if the only solution is shown, "all" if all are shown, "partial" otherwise;
then as many are shown as the limit says, but at least one, or a timeout was given. -/
def Report {β : Type} (fmt : Int → String) (V : β → Prop) (shows : β → List (List Char) → Prop) (limit timeout : ArgVal) (lines : List (List Char)) : Prop :=
  ∃ L body last secs, lines = body ++ [String.toList last] ∧ Numbered shows 1 L body ∧ L.Nodup ∧ (∀ b ∈ L, V b) ∧
    (((∀ b, V b → b ∈ L) ∧ (L = [] ∨ ∀ l, limit = .int l → L.length < l) ∧
       (L.length = 1 ∧ last = "\nFound unique solution in " ++ fmt secs ++ " seconds" ∨
        L.length ≠ 1 ∧ last = "\nFound all " ++ toString L.length ++ " solutions in " ++ fmt secs ++ " seconds")) ∨
     ∃ s, (s = "" ∧ L.length = 1 ∨ s = "s" ∧ L.length ≠ 1) ∧
       ((last = "\nFound " ++ toString L.length ++ " partial solution" ++ s ++ " in " ++ fmt secs ++ " seconds [limit reached]" ∧
          ∃ l, limit = .int l ∧ L.length = max 1 l.toNat) ∨
        (last = "\nFound " ++ toString L.length ++ " partial solution" ++ s ++ " in " ++ fmt secs ++ " seconds [timeout reached]" ∧
          (∃ t, timeout = .float t) ∧ (L = [] ∨ ∀ l, limit = .int l → L.length < l))))

theorem Report.mono {β : Type} {fmt : Int → String} {V : β → Prop} {p q : β → List (List Char) → Prop} {limit timeout : ArgVal} {lines : List (List Char)}
    (h : Report fmt V p limit timeout lines) (hpq : ∀ b, V b → ∀ ls, p b ls → q b ls) : Report fmt V q limit timeout lines := by
  obtain ⟨L, body, last, secs, h1, h2, h3, h4, h5⟩ := h
  exact ⟨L, body, last, secs, h1, h2.mono (fun b hb => hpq b (h4 b hb)), h3, h4, h5⟩

theorem limit_asked {v : ArgVal} {l : Int} : (limitSetting v).stored = some l ↔ v = .int l := by
  cases v <;> simp [limitSetting, Setting.stored]

theorem timeout_asked {m : Machine} {t : ArgVal} (h : (m.timeoutSetting t).stored.isSome) : ∃ x, t = .float x := by
  cases t with
  | float x => exact ⟨x, rfl⟩
  | _ => simp [Machine.timeoutSetting, Setting.stored] at h

theorem report {β : Type} (m : Machine) (hs : ∀ l, (m.shuffle l).Perm l) (p : Policy) (t v : ArgVal) {w : World} (hn : w.model.vars.keys.Nodup)
    {dec : Subst → Res β} {V : β → Prop} (hp : PuzzleRun (m.solveArgs p t v) (puzzleRun (m.solveArgs p t v) w dec) V)
    (pr : β → Res (List (List Char))) (hpr : ∀ b, V b → ∃ ls, pr b = .ok ls) :
    ∃ N, ∀ n ≥ N, ∃ lines, demoRun m.fmt pr (puzzleRun (m.solveArgs p t v) w dec) n = .ok lines ∧ Report m.fmt V (fun b ls => pr b = .ok ls) v t lines := by
  have hs : ∀ l, ((m.solveArgs p t v).shuffle l).Perm l := hs
  have hlim : ∀ l, (m.solveArgs p t v).solver.limit = some l ↔ v = .int l := fun l => limit_asked
  have htmo : (m.solveArgs p t v).solver.timeout.isSome → ∃ x, t = .float x := fun h => timeout_asked (m := m) h
  generalize m.solveArgs p t v = a at hp hs hlim htmo ⊢
  obtain ⟨D, ph, ho⟩ := outcome a w.model w.heap hs hn
  obtain ⟨M, hM, hc⟩ := ho a.solver.limit a.solver.timeout a.clock
  have hcut : a.cut a.solver.limit a.solver.timeout a.clock = a := rfl
  rw [hcut] at hM hc
  obtain ⟨N', hN'⟩ := hp.complete
  refine ⟨N', fun n hn => ?_⟩
  obtain ⟨L, hL, hph, hrest⟩ := hN' n hn
  obtain ⟨L', hL', hV⟩ := hp.sound n
  rw [hL] at hL'; cases hL'
  obtain ⟨body, h1, h2⟩ := loop_numbered (fun b hb => hpr b (hV b hb)) 0
  have hcount : (puzzleRun a w dec n).2.timer.stats.1 = L.length := by
    rw [each_length hL]
    exact congrArg Prod.fst (C22_stats a hs w.model passive w.heap n).2.2
  have hterm : (solveRun a w.model passive n w.heap).2.1.phase.terminal := by
    have : (solveRun a w.model passive n w.heap).2.1.phase = .finished := hph
    rw [this]; trivial
  rw [over_unique hM hterm] at hc
  have few : ((solveRun a w.model passive n w.heap).1 = [] ∨ ∀ l, a.solver.limit = some l → ((solveRun a w.model passive n w.heap).1.length : Int) < l) →
      (L = [] ∨ ∀ l, v = .int l → (L.length : Int) < l) := by
    rintro (h | h)
    · left
      have := each_length hL
      rw [h] at this
      exact List.length_eq_zero_iff.1 this
    · right
      intro l hl
      rw [each_length hL]
      exact h l ((hlim l).2 hl)
  have htext : (puzzleRun a w dec n).2.statsText m.fmt =
      solveStatsText L.length (m.fmt (puzzleRun a w dec n).2.timer.stats.2) (puzzleRun a w dec n).2.interrupt := by
    unfold Gen.statsText; rw [hcount]
  refine ⟨body ++ [((puzzleRun a w dec n).2.statsText m.fmt).toList], ?_,
    L, body, (puzzleRun a w dec n).2.statsText m.fmt, (puzzleRun a w dec n).2.timer.stats.2, rfl, h2, hp.once n L hL, hV, ?_⟩
  · unfold demoRun
    rw [hL]
    simp only [ok_bind, h1, hph]
    rfl
  rw [htext]
  have e : ∀ x y : String, x ++ " seconds [" ++ y ++ " reached]" = x ++ (" seconds [" ++ y ++ " reached]") := by
    intro x y; simp [String.append_assoc]
  rcases hrest with ⟨hi, hall⟩ | ⟨hi, l', hl, hlen⟩ | ⟨hi, ht⟩
  · left
    refine ⟨fun b => (hall b).2, few ?_, ?_⟩
    · cases hc with
      | natural _ _ _ h4 => exact h4
      | timeout _ _ h _ _ =>
        have hi : (solveRun a w.model passive n w.heap).2.1.interrupt = none := hi
        rw [hi] at h; cases h
      | limit _ _ _ h _ =>
        have hi : (solveRun a w.model passive n w.heap).2.1.interrupt = none := hi
        rw [hi] at h; cases h
    · rw [hi]
      by_cases h1 : L.length = 1
      · exact .inl ⟨h1, by simp [solveStatsText, h1]⟩
      · exact .inr ⟨h1, by simp [solveStatsText, h1, String.append_assoc]⟩
  · right
    rw [hi]
    refine ⟨if L.length = 1 then "" else "s", by split <;> simp_all, .inl ⟨?_, l', (hlim l').1 hl, hlen⟩⟩
    exact e _ "limit"
  · right
    rw [hi]
    refine ⟨if L.length = 1 then "" else "s", by split <;> simp_all, .inr ⟨e _ "timeout", htmo ht, few ?_⟩⟩
    have hi : (solveRun a w.model passive n w.heap).2.1.interrupt = some .timeout := hi
    cases hc with
    | natural _ _ h _ => rw [hi] at h; cases h
    | timeout _ _ _ _ h => exact h
    | limit _ _ _ h _ => rw [hi] at h; cases h

/-! ## The listing of the model -/

/-- Specification: with `-s` the text `t` is the listing of the model `mo`, whose domains are objects of the kind `K` with the values that the variables have; without, there is no
such text. -/
def ModelShown (K : PyDomain → Prop) (asked : Bool) (mo : Model) (t : List Char) : Prop :=
  if asked then ∃ dom, t = listing dom mo ∧ ∀ x i d, (x, i) ∈ mo.vars → i.domain = some d → (dom x).values = d ∧ K (dom x) else t = []

theorem model_shown {ρ : Store} {w : World} {vs : Dict (List Int)} {C : Subst → Prop} (hb : Built ρ w vs C) {obj : List Int → PyDomain}
    {K : PyDomain → Prop} (hv : ∀ p ∈ vs, (obj p.2).values = p.2 ∧ K (obj p.2)) (b : Bool) : ModelShown K b w.model (showModel (.bool b) obj w.model) := by
  unfold ModelShown showModel
  cases b with
  | false => simp
  | true =>
    refine ⟨_, rfl, fun x i d hm hd => ?_⟩
    have hn : w.model.vars.keys.Nodup := by rw [hb.keys]; exact hb.nodup
    have hg := mem_get? hn hm
    have hm' := hm
    rw [hb.vars, List.mem_map] at hm'
    obtain ⟨p, hp, he⟩ := hm'
    cases he
    cases hd
    have e : domainObjects obj w.model p.1 = obj p.2 := by
      unfold domainObjects
      rw [show w.model.vars.get? p.1 = some ⟨some p.2, none⟩ from hg]
    rw [e]
    exact hv p hp

theorem rangeVals_one (a b : Int) : rangeVals a b 1 = pyRange a b := by
  unfold rangeVals pyRange
  simp only [show (0 : Int) < 1 by decide, if_true]
  rw [show (b - a + 1 - 1) / 1 = b - a by omega]
  exact List.map_congr_left (fun i _ => by simp)

theorem rangeObject_range {a b : Int} (h : a < b) : rangeObject (pyRange a b) = .range a b 1 := by
  obtain ⟨k, hk⟩ : ∃ k : Nat, b - a = (k : Int) + 1 := ⟨(b - a - 1).toNat, by omega⟩
  have e : pyRange a b = ((List.range k).map (fun i => a + Int.ofNat i)) ++ [a + (k : Int)] := by
    unfold pyRange
    rw [show (b - a).toNat = k + 1 by omega, List.range_succ, List.map_append]
    rfl
  have h0 : ∃ l, pyRange a b = a :: l := by
    unfold pyRange
    rw [show (b - a).toNat = k + 1 by omega, List.range_succ_eq_map]
    exact ⟨((List.range k).map Nat.succ).map (fun i => a + Int.ofNat i), by rw [List.map_cons]; simp⟩
  obtain ⟨l, hl⟩ := h0
  rw [hl, rangeObject]
  have : (a :: l).getLast (by simp) = a + (k : Int) := by
    have h1 : (a :: l).getLast? = some (a + (k : Int)) := by rw [← hl, e]; simp
    rw [List.getLast?_eq_some_getLast (by simp)] at h1
    exact Option.some.inj h1
  rw [this, show a + (k : Int) + 1 = b by omega]

/-! ## The programs -/

/-- The lines of a text, each with its newline. -/
def unlines (lines : List (List Char)) : List Char := lines.flatMap (· ++ ['\n'])

/-- `satisfy queens`: with `-s` first the listing of the model, then the report about all arrangements of queens. The board has the size asked for with `-b`, or 8. -/
theorem C74_queens (m : Machine) (hs : ∀ l, (m.shuffle l).Perm l) {ps : List Piece} {l : List (List Char)} (hw : Written ps l)
    (hb : ∀ p ∈ ps, p.Belongs .queens) (hp : ∀ p ∈ ps, ∀ t ∈ p.texts, PlainArg t) (hm : ∀ p ∈ ps, ∃ v, Means m.outside p v)
    {size : Int} {limit timeout : ArgVal} {shown : Bool} (hsize : Asked m.outside ps .boardSize (.int size)) (hpos : 0 < size)
    (hlimit : Asked m.outside ps .limit limit) (htimeout : Asked m.outside ps .timeout timeout) (hshown : Asked m.outside ps .showModel (.bool shown)) :
    ∃ w qs front, queensBuild size.toNat ⟨.empty, m.heap⟩ = (w, .ok qs) ∧ ModelShown (fun o => ∃ a b, o = .range a b 1) shown w.model front ∧
      ∃ N, ∀ n ≥ N, ∃ lines, program m ("queens".toList :: l) n = .text (front ++ unlines lines) ∧
        Report m.fmt (QueensBoard size.toNat) (fun B ls => ChessPicture size.toNat (Queen B) ls) limit timeout lines := by
  obtain ⟨kw, hcall, hkeys, hkw⟩ := C73_call (c := .queens) hw hb hp hm (by
    rintro ⟨⟨t, ht⟩, _⟩
    exact absurd (hb _ ht) (by simp [Piece.Belongs]))
  have arg : ∀ d ∈ Command.queens.parameters, ∀ v, Asked m.outside ps d v → kwarg kw d = v := fun d hd v hv =>
    asked_unique (hkw d _ (kwarg_mem (by rw [hkeys]; exact hd))) hv
  have e1 := arg .boardSize (by decide) _ hsize
  have e2 := arg .limit (by decide) _ hlimit
  have e3 := arg .timeout (by decide) _ htimeout
  have e4 := arg .showModel (by decide) _ hshown
  have hn : 0 < size.toNat := by omega
  obtain ⟨w, queens, h1, h2⟩ := C36_partial m.heap (m.solveArgs .groups timeout limit) hs rfl size.toNat hn
  obtain ⟨w', h1', hbuilt⟩ := queens_built m.heap size.toNat
  rw [h1] at h1'
  cases h1'
  have hshow : ModelShown (fun o => ∃ a b, o = .range a b 1) shown w.model (showModel (.bool shown) rangeObject w.model) := by
    refine model_shown hbuilt (fun p hp => ?_) shown
    obtain ⟨i, _, rfl⟩ := List.mem_map.1 hp
    cases i with
    | q r =>
      change (rangeObject (pyRange 0 size.toNat)).values = pyRange 0 size.toNat ∧ ∃ a b, rangeObject (pyRange 0 size.toNat) = .range a b 1
      rw [rangeObject_range (by omega)]
      exact ⟨rangeVals_one _ _, _, _, rfl⟩
    | ul r c =>
      change (rangeObject (pyRange 0 (2 * size.toNat + 1))).values = pyRange 0 (2 * size.toNat + 1) ∧
        ∃ a b, rangeObject (pyRange 0 (2 * size.toNat + 1)) = .range a b 1
      rw [rangeObject_range (by omega)]
      exact ⟨rangeVals_one _ _, _, _, rfl⟩
    | ur r c =>
      change (rangeObject (pyRange (-size.toNat) (size.toNat + 1))).values = pyRange (-size.toNat) (size.toNat + 1) ∧
        ∃ a b, rangeObject (pyRange (-size.toNat) (size.toNat + 1)) = .range a b 1
      rw [rangeObject_range (by omega)]
      exact ⟨rangeVals_one _ _, _, _, rfl⟩
  obtain ⟨N, hN⟩ := report m hs .groups timeout limit (by rw [hbuilt.keys]; exact hbuilt.nodup) h2 (fun B => .ok (queensPicture size.toNat B))
    (fun B _ => ⟨_, rfl⟩)
  refine ⟨w, _, _, h1, hshow, N, fun n hn' => ?_⟩
  obtain ⟨lines, h3, h4⟩ := hN n hn'
  refine ⟨lines, ?_, h4.mono (fun B hB ls hls => ?_)⟩
  · unfold program
    rw [show mainCall m.outside ("queens".toList :: l) = .call .queens kw from hcall]
    simp only [e1, e2, e3, e4, queensDemo, h1, h3, printed, unlines]
  · cases hls
    exact C55_queens hn hB

/-- The text of the riddle. -/
def riddleText : List String := [
  " 0. The English man lives in the red house.",
  " 1. The Swede has a dog.",
  " 2. The Dane drinks tea.",
  " 3. The green house is immediately to the left of the white house.",
  " 4. They drink coffee in the green house.",
  " 5. The man who smokes Pall Mall has birds.",
  " 6. In the yellow house they smoke Dunhill.",
  " 7. In the middle house they drink milk.",
  " 8. The Norwegian lives in the first house.",
  " 9. The man who smokes Blend lives in the house next to the house with cats.",
  "10. In a house next to the house where they have a horse, they smoke Dunhill.",
  "11. The man who smokes Blue Master drinks beer.",
  "12. The German smokes Prince.",
  "13. The Norwegian lives next to the blue house.",
  "14. They drink water in a house next to the house where they smoke Blend.",
  "",
  "Who owns the zebra?",
  "(see http://rosettacode.org/wiki/Zebra_puzzle)"]

theorem riddle_text : einRiddle ++ ['\n'] = unlines (riddleText.map String.toList) := by decide +kernel

/-- The solution, as it is printed. -/
def streetLines : List String := [
  "    The Norwegian, who lives in the first yellow house, drinks water, smokes Dunhill and has cats.",
  "    The Dane, who lives in the second blue house, drinks tea, smokes Blend and has a horse.",
  "    The English, who lives in the third red house, drinks milk, smokes Pall Mall and has birds.",
  "[*] The German, who lives in the fourth green house, drinks coffee, smokes Prince and has a zebra.",
  "    The Swede, who lives in the fifth white house, drinks beer, smokes Blue Master and has a dog."]

/-- `satisfy einstein`: the text of the riddle, with `-s` the listing of the model, then the report about the one solution. -/
theorem C74_einstein (m : Machine) (hs : ∀ l, (m.shuffle l).Perm l) {ps : List Piece} {l : List (List Char)} (hw : Written ps l)
    (hb : ∀ p ∈ ps, p.Belongs .einstein) (hp : ∀ p ∈ ps, ∀ t ∈ p.texts, PlainArg t) (hm : ∀ p ∈ ps, ∃ v, Means m.outside p v)
    {limit timeout : ArgVal} {shown : Bool}
    (hlimit : Asked m.outside ps .limit limit) (htimeout : Asked m.outside ps .timeout timeout) (hshown : Asked m.outside ps .showModel (.bool shown)) :
    ∃ w vs front, einBuild ⟨.empty, m.heap⟩ = (w, .ok vs) ∧
      ModelShown (fun o => o = .tuple [1, 2, 3, 4, 5] ∨ o = .list [-1, 1]) shown w.model front ∧
      ∃ N, ∀ n ≥ N, ∃ lines, program m ("einstein".toList :: l) n = .text (unlines (riddleText.map String.toList) ++ front ++ unlines lines) ∧
        Report m.fmt Riddle (fun _ ls => ls = streetLines.map String.toList) limit timeout lines := by
  obtain ⟨kw, hcall, hkeys, hkw⟩ := C73_call (c := .einstein) hw hb hp hm (by
    rintro ⟨⟨t, ht⟩, _⟩
    exact absurd (hb _ ht) (by simp [Piece.Belongs]))
  have arg : ∀ d ∈ Command.einstein.parameters, ∀ v, Asked m.outside ps d v → kwarg kw d = v := fun d hd v hv =>
    asked_unique (hkw d _ (kwarg_mem (by rw [hkeys]; exact hd))) hv
  have e2 := arg .limit (by decide) _ hlimit
  have e3 := arg .timeout (by decide) _ htimeout
  have e4 := arg .showModel (by decide) _ hshown
  obtain ⟨w, vs, h1, h2⟩ := C43_riddle m.heap (m.solveArgs .minBound timeout limit) hs rfl
  obtain ⟨w', h1', hbuilt⟩ := ein_built m.heap
  rw [h1] at h1'
  cases h1'
  have hshow : ModelShown (fun o => o = .tuple [1, 2, 3, 4, 5] ∨ o = .list [-1, 1]) shown w.model (showModel (.bool shown) riddleObject w.model) := by
    refine model_shown hbuilt ?_ shown
    decide +kernel
  have hpr : ∀ z, Riddle z → einPrint z = .ok (streetLines.map String.toList) := by
    intro z hz
    rw [riddle_unique hz]
    decide +kernel
  obtain ⟨N, hN⟩ := report m hs .minBound timeout limit (by rw [hbuilt.keys]; exact hbuilt.nodup) h2 einPrint (fun z hz => ⟨_, hpr z hz⟩)
  refine ⟨w, _, _, h1, hshow, N, fun n hn' => ?_⟩
  obtain ⟨lines, h3, h4⟩ := hN n hn'
  refine ⟨lines, ?_, h4.mono (fun z hz ls hls => ?_)⟩
  · unfold program
    rw [show mainCall m.outside ("einstein".toList :: l) = .call .einstein kw from hcall]
    simp only [e2, e3, e4, einsteinDemo, h1, h3, printed, unlines, riddle_text]
  · rw [hpr z hz] at hls
    cases hls
    rfl

/-- Without a timeout all of it is determined but for the time: with a limit of at most 1 the solution is called partial. -/
theorem C74_einstein_text (m : Machine) (hs : ∀ l, (m.shuffle l).Perm l) {ps : List Piece} {l : List (List Char)} (hw : Written ps l)
    (hb : ∀ p ∈ ps, p.Belongs .einstein) (hp : ∀ p ∈ ps, ∀ t ∈ p.texts, PlainArg t) (hm : ∀ p ∈ ps, ∃ v, Means m.outside p v)
    {limit timeout : ArgVal} (hlimit : Asked m.outside ps .limit limit) (htimeout : Asked m.outside ps .timeout timeout)
    (hno : ∀ t, timeout ≠ .float t) (hshown : Asked m.outside ps .showModel (.bool false)) :
    ∃ N, ∀ n ≥ N, ∃ last secs, program m ("einstein".toList :: l) n =
        .text (unlines (riddleText.map String.toList) ++ unlines (("\n=== solution 1 ===" :: streetLines ++ [last]).map String.toList)) ∧
      ((∃ k, limit = .int k ∧ k ≤ 1 ∧ last = "\nFound 1 partial solution in " ++ m.fmt secs ++ " seconds [limit reached]") ∨
       ((∀ k, limit = .int k → 1 < k) ∧ last = "\nFound unique solution in " ++ m.fmt secs ++ " seconds")) := by
  obtain ⟨w, vs, front, _, hf, N, hN⟩ := C74_einstein m hs hw hb hp hm hlimit htimeout hshown
  have hf : front = [] := hf
  subst hf
  refine ⟨N, fun n hn => ?_⟩
  obtain ⟨lines, e, L, body, last, secs, rfl, hnum, hnd, hV, hlast⟩ := hN n hn
  have one : ∀ {L : List (List (Int × List (String × String)))}, L.Nodup → (∀ b ∈ L, Riddle b) → L = [] ∨ L = [einStreet] := by
    intro L hnd hV
    cases L with
    | nil => exact .inl rfl
    | cons x xs =>
      cases xs with
      | nil => rw [riddle_unique (hV x (by simp))]; exact .inr rfl
      | cons y ys =>
        exfalso
        rw [riddle_unique (hV x (by simp)), riddle_unique (hV y (by simp))] at hnd
        simp at hnd
  have key : L = [einStreet] ∧ ((∃ k, limit = .int k ∧ k ≤ 1 ∧ last = "\nFound 1 partial solution in " ++ m.fmt secs ++ " seconds [limit reached]") ∨
       ((∀ k, limit = .int k → 1 < k) ∧ last = "\nFound unique solution in " ++ m.fmt secs ++ " seconds")) := by
    rcases one hnd hV with rfl | rfl
    · rcases hlast with ⟨hall, _, _⟩ | ⟨s, _, ⟨_, k, _, hk⟩ | ⟨_, ⟨t, ht⟩, _⟩⟩
      · exact absurd (hall _ einStreet_riddle) (by simp)
      · simp only [List.length_nil] at hk; omega
      · exact absurd ht (hno t)
    · refine ⟨rfl, ?_⟩
      rcases hlast with ⟨_, hfew, ⟨_, hl⟩ | ⟨hne, _⟩⟩ | ⟨s, hs', ⟨hl, k, hk, hlen⟩ | ⟨_, ⟨t, ht⟩, _⟩⟩
      · right
        refine ⟨fun k hk => ?_, hl⟩
        rcases hfew with h | h
        · cases h
        · have := h k hk
          simpa using this
      · simp at hne
      · left
        refine ⟨k, hk, ?_, ?_⟩
        · simp only [List.length_singleton] at hlen; omega
        · rcases hs' with ⟨rfl, _⟩ | ⟨_, h⟩
          · rw [hl]
            have : "\nFound " ++ toString [einStreet].length ++ " partial solution" ++ "" ++ " in " = "\nFound 1 partial solution in " := by decide
            rw [this]
          · simp at h
      · exact absurd ht (hno t)
  obtain ⟨rfl, hend⟩ := key
  refine ⟨last, secs, ?_, hend⟩
  cases hnum with
  | @cons _ _ _ ls rest h1 h2 =>
    cases h2
    subst h1
    rw [e]
    have : ("\n=== solution " ++ toString 1 ++ " ===").toList = "\n=== solution 1 ===".toList := by decide
    simp only [List.append_nil, List.map_cons, List.map_append, List.map_nil, this, List.cons_append]

/-- The cryptarithm demo, once its arguments are known. -/
theorem crypt_demo (m : Machine) (hs : ∀ l, (m.shuffle l).Perm l) (ho : ∀ l, (m.ord l).Perm l) {source : List Char} {l r : CTree}
    (hsrc : CSource source l r) (hne : ∃ c, CLetter l r c) (hbc : ¬ BothConstant l r) (avoid : Bool) (limit timeout : ArgVal) (shown : Bool) :
    ∃ w letters, cryptBuild m.ord source avoid ⟨.empty, m.heap⟩ = (w, .ok letters) ∧ letters.Nodup ∧ (∀ c, c ∈ letters ↔ CLetter l r c) ∧
      ModelShown (fun o => ∃ d, o = .tuple d) shown w.model (showModel (.bool shown) .tuple w.model) ∧
      ∃ N, ∀ n ≥ N, ∃ lines,
        demoRun m.fmt (fun τ => cryptPrint τ source) (puzzleRun (m.solveArgs .minBound timeout limit) w .ok) n = .ok lines ∧
        Report m.fmt (CSolution true letters l r) (EquationLines letters source) limit timeout lines := by
  let a := m.solveArgs .minBound timeout limit
  obtain ⟨w, letters, h1, hnd, h2, h3, _⟩ := C41_partial m.heap a hs rfl m.ord ho source l r hsrc hne hbc avoid
  have free : ∀ a : SolveArgs, (∀ l, (a.shuffle l).Perm l) → a.adds = [] →
      (∀ n, ∀ τ ∈ (solveRun a w.model passive n w.heap).1, PrintsText letters source τ) ∧
      PuzzleRun a (puzzleRun a w (cryptDecode letters)) (CSolution true letters l r) := by
    intro a hs ha
    obtain ⟨w', letters', h1', _, h4⟩ := C47_text m.heap a hs ha m.ord ho source l r hsrc hbc avoid
    rw [h1] at h1'; cases h1'
    obtain ⟨w', letters', h1', _, _, h5, _⟩ := C41_partial m.heap a hs ha m.ord ho source l r hsrc hne hbc avoid
    rw [h1] at h1'; cases h1'
    exact ⟨h4, h5⟩
  obtain ⟨w', letters', nz, h1', _, _, _, hbuilt⟩ := crypt_built m.heap m.ord ho hsrc hbc avoid
  rw [h1] at h1'; cases h1'
  refine ⟨w, letters, h1, hnd, h2, model_shown hbuilt (fun p _ => ⟨rfl, _, rfl⟩) shown, ?_⟩
  classical
  have key : ∀ a : SolveArgs, (∀ l, (a.shuffle l).Perm l) → a.adds = [] → ∀ n, ∀ τ ∈ (solveRun a w.model passive n w.heap).1, ∃ b ls,
      cryptDecode letters τ = .ok b ∧ b.map Prod.fst = letters ∧ EquationLines letters source b ls ∧ cryptPrint τ source = .ok ls := by
    intro a hs ha n τ hτ
    obtain ⟨ks, D, p1, p2, p3, p4, p5⟩ := (free a hs ha).1 n τ hτ
    have hd : cryptDecode letters τ = .ok (letters.map (fun c => (c, (D c : Int)))) :=
      Res.each_ok (g := fun c => (c, (D c : Int))) (fun c hc => by rw [Subst.at_ok (p3 c hc)]; rfl)
    refine ⟨_, _, hd, by simp [Function.comp_def], ⟨ks, D, p1, p2, fun c v hm => ?_, rfl, p5⟩, p4⟩
    obtain ⟨c', _, e⟩ := List.mem_map.1 hm
    cases e; rfl
  let pr' : List (Char × Int) → Res (List (List Char)) := fun b => if hx : ∃ ls, EquationLines letters source b ls then .ok hx.choose else .error .keyError
  have hpr' : ∀ b ls, b.map Prod.fst = letters → EquationLines letters source b ls → pr' b = .ok ls := by
    intro b ls hb hls
    have hx : ∃ ls, EquationLines letters source b ls := ⟨ls, hls⟩
    simp only [pr', dif_pos hx]
    rw [equationLines_unique hb hx.choose_spec hls]
  have hdemo : ∀ n, demoRun m.fmt (fun τ => cryptPrint τ source) (puzzleRun a w .ok) n = demoRun m.fmt pr' (puzzleRun a w (cryptDecode letters)) n := by
    intro n
    refine demoRun_decoded m.fmt (fun τ hτ => ?_)
    obtain ⟨b, ls, k1, k2, k3, k4⟩ := key a hs rfl n τ hτ
    exact ⟨b, k1, by rw [k4, hpr' b ls k2 k3]⟩
  -- without limit and timeout every solution is printed
  have hall : ∀ b, CSolution true letters l r b → ∃ ls, pr' b = .ok ls ∧ EquationLines letters source b ls := by
    intro b hb
    let a0 : SolveArgs := { solver := {} }
    obtain ⟨N, hN⟩ := (free a0 (fun l => .refl _) rfl).2.complete
    obtain ⟨L, hL, _, hc⟩ := hN N (Nat.le_refl N)
    have hmem : b ∈ L := by
      rcases hc with ⟨_, hall⟩ | ⟨_, l, hl, _⟩ | ⟨_, ht⟩
      · exact (hall b).2 hb
      · cases hl
      · cases ht
    obtain ⟨τ, hτ, hd⟩ := forall₂_left (Res.each_forall.1 hL) hmem
    obtain ⟨b', ls, k1, k2, k3, _⟩ := key a0 (fun l => .refl _) rfl N τ hτ
    rw [hd] at k1; cases k1
    exact ⟨ls, hpr' b ls k2 k3, k3⟩
  obtain ⟨N, hN⟩ := report m hs .minBound timeout limit (by rw [hbuilt.keys]; exact hbuilt.nodup) h3 pr' (fun b hb => (hall b hb).imp fun _ h => h.1)
  refine ⟨N, fun n hn => ?_⟩
  obtain ⟨lines, h5, h6⟩ := hN n hn
  refine ⟨lines, by rw [← h5]; exact hdemo n, h6.mono (fun b hb ls hls => ?_)⟩
  obtain ⟨ls', k1, k2⟩ := hall b hb
  rw [k1] at hls
  cases hls
  exact k2

/-- `satisfy cryptarithm SOURCE`: the source, with `-s` the listing of the model, then the report about all solutions. The options may stand before and after the source;
the last one before it must have its argument. Whether leading zeros are asked for makes no difference. -/
theorem C74_cryptarithm (m : Machine) (hs : ∀ l, (m.shuffle l).Perm l) (ho : ∀ l, (m.ord l).Perm l) {pre post : List Piece}
    {before after : List (List Char)} (hw : Written pre before) (hw' : Written post after) (hb : ∀ p ∈ pre ++ post, p.Belongs .cryptarithm)
    (hp : ∀ p ∈ pre ++ post, ∀ t ∈ p.texts, PlainArg t) (hm : ∀ p ∈ pre ++ post, ∃ v, Means m.outside p v) {source : List Char} (hplain : PlainArg source)
    (hlast : ∀ p, pre.getLast? = some p → ¬ p.Bare) {limit timeout : ArgVal} {shown : Bool}
    (hlimit : Asked m.outside (pre ++ post) .limit limit) (htimeout : Asked m.outside (pre ++ post) .timeout timeout)
    (hshown : Asked m.outside (pre ++ post) .showModel (.bool shown)) {l r : CTree} (hsrc : CSource source l r) (hne : ∃ c, CLetter l r c)
    (hbc : ¬ BothConstant l r) :
    ∃ w letters avoid front, cryptBuild m.ord source avoid ⟨.empty, m.heap⟩ = (w, .ok letters) ∧ letters.Nodup ∧ (∀ c, c ∈ letters ↔ CLetter l r c) ∧
      ModelShown (fun o => ∃ d, o = .tuple d) shown w.model front ∧
      ∃ N, ∀ n ≥ N, ∃ lines, program m ("cryptarithm".toList :: before ++ source :: after) n = .text (source ++ "\n".toList ++ front ++ unlines lines) ∧
        Report m.fmt (CSolution true letters l r) (EquationLines letters source) limit timeout lines := by
  obtain ⟨kw, hcall, hkeys, hsource, hkw⟩ := C73_source (o := m.outside) hw hw' hb hp hm hplain hlast
  have arg : ∀ d ∈ Command.cryptarithm.parameters, d ≠ .source → ∀ v, Asked m.outside (pre ++ post) d v → kwarg kw d = v := fun d hd hne v hv =>
    asked_unique (hkw d _ (kwarg_mem (by rw [hkeys]; exact hd)) hne) hv
  have e1 : kwarg kw .source = .text source := by
    have h1 := kwarg_mem (kw := kw) (d := .source) (by rw [hkeys]; decide)
    have hnd : (kw.map Prod.fst).Nodup := by rw [hkeys]; decide
    exact congrArg Prod.snd (List.inj_on_of_nodup_map hnd h1 hsource rfl)
  have e2 := arg .limit (by decide) (by decide) _ hlimit
  have e3 := arg .timeout (by decide) (by decide) _ htimeout
  have e4 := arg .showModel (by decide) (by decide) _ hshown
  obtain ⟨w, letters, h1, h2, h3, h4, N, hN⟩ := crypt_demo m hs ho hsrc hne hbc (decide (kwarg kw .avoidLeadingZeros = .bool true)) limit timeout shown
  refine ⟨w, letters, _, _, h1, h2, h3, h4, N, fun n hn => ?_⟩
  obtain ⟨lines, h5, h6⟩ := hN n hn
  refine ⟨lines, ?_, h6⟩
  unfold program
  rw [show mainCall m.outside ("cryptarithm".toList :: before ++ source :: after) = .call .cryptarithm kw from hcall]
  simp only [e1, e2, e3, e4, cryptarithmDemo, h1, h5, printed, unlines]
  rfl

/-- `satisfy cryptarithm` without a source: the default one. -/
theorem C74_cryptarithm_default (m : Machine) (hs : ∀ l, (m.shuffle l).Perm l) (ho : ∀ l, (m.ord l).Perm l) {ps : List Piece} {l : List (List Char)}
    (hw : Written ps l) (hb : ∀ p ∈ ps, p.Belongs .cryptarithm) (hp : ∀ p ∈ ps, ∀ t ∈ p.texts, PlainArg t) (hm : ∀ p ∈ ps, ∃ v, Means m.outside p v)
    {limit timeout : ArgVal} {shown : Bool}
    (hlimit : Asked m.outside ps .limit limit) (htimeout : Asked m.outside ps .timeout timeout) (hshown : Asked m.outside ps .showModel (.bool shown)) :
    ∃ w letters avoid front, cryptBuild m.ord "SEND+MORE==MONEY".toList avoid ⟨.empty, m.heap⟩ = (w, .ok letters) ∧
      letters.Perm ['S', 'E', 'N', 'D', 'M', 'O', 'R', 'Y'] ∧ ModelShown (fun o => ∃ d, o = .tuple d) shown w.model front ∧
      ∃ N, ∀ n ≥ N, ∃ lines, program m ("cryptarithm".toList :: l) n =
          .text ("No input source - using default cryptarithm example:\nSEND+MORE==MONEY\n\n".toList ++ front ++ unlines lines) ∧
        Report m.fmt (CSolution true letters (.add (.word "SEND".toList) (.word "MORE".toList)) (.word "MONEY".toList))
          (EquationLines letters "SEND+MORE==MONEY".toList) limit timeout lines := by
  obtain ⟨kw, hcall, hkeys, hkw⟩ := C73_call (c := .cryptarithm) hw hb hp hm (by
    rintro ⟨⟨t, ht⟩, _⟩
    exact absurd (hb _ ht) (by simp [Piece.Belongs]))
  have arg : ∀ d ∈ Command.cryptarithm.parameters, ∀ v, Asked m.outside ps d v → kwarg kw d = v := fun d hd v hv =>
    asked_unique (hkw d _ (kwarg_mem (by rw [hkeys]; exact hd))) hv
  have e1 : kwarg kw .source = .none := by
    refine arg .source (by decide) _ (.inr ⟨fun p _ h => ?_, rfl⟩)
    cases p <;> cases h
  have e2 := arg .limit (by decide) _ hlimit
  have e3 := arg .timeout (by decide) _ htimeout
  have e4 := arg .showModel (by decide) _ hshown
  have hsrc : CSource "SEND+MORE==MONEY".toList (.add (.word "SEND".toList) (.word "MORE".toList)) (.word "MONEY".toList) :=
    ⟨"SEND+MORE".toList, "MONEY".toList, rfl,
      .add (s := "SEND".toList) (t := "MORE".toList) (.term (.factor (.word (w := "SEND".toList) (by decide) (by decide))))
        (.factor (.word (w := "MORE".toList) (by decide) (by decide))),
      .term (.factor (.word (w := "MONEY".toList) (by decide) (by decide)))⟩
  have hletters : ∀ c, CLetter (.add (.word "SEND".toList) (.word "MORE".toList)) (.word "MONEY".toList) c ↔ c ∈ ['S', 'E', 'N', 'D', 'M', 'O', 'R', 'Y'] := by
    intro c
    constructor
    · rintro ⟨w, hw, hc, _⟩
      have hw : w ∈ ["SEND".toList, "MORE".toList, "MONEY".toList] := hw
      simp only [List.mem_cons, List.not_mem_nil, or_false] at hw
      rcases hw with rfl | rfl | rfl
      · exact (by decide : ∀ c ∈ "SEND".toList, c ∈ ['S', 'E', 'N', 'D', 'M', 'O', 'R', 'Y']) c hc
      · exact (by decide : ∀ c ∈ "MORE".toList, c ∈ ['S', 'E', 'N', 'D', 'M', 'O', 'R', 'Y']) c hc
      · exact (by decide : ∀ c ∈ "MONEY".toList, c ∈ ['S', 'E', 'N', 'D', 'M', 'O', 'R', 'Y']) c hc
    · intro hc
      simp only [List.mem_cons, List.not_mem_nil, or_false] at hc
      rcases hc with rfl | rfl | rfl | rfl | rfl | rfl | rfl | rfl
      all_goals first
        | exact ⟨"SEND".toList, by decide, by decide, by decide⟩
        | exact ⟨"MORE".toList, by decide, by decide, by decide⟩
        | exact ⟨"MONEY".toList, by decide, by decide, by decide⟩
  obtain ⟨w, letters, h1, h2, h3, h4, N, hN⟩ := crypt_demo m hs ho hsrc ⟨'S', (hletters _).2 (by decide)⟩ (by
    rintro ⟨_, n, hn⟩
    have hw : (CTree.word "MONEY".toList).folded = .formula := by decide
    rw [hw] at hn
    cases hn) (decide (kwarg kw .avoidLeadingZeros = .bool true)) limit timeout shown
  refine ⟨w, letters, _, _, h1, ?_, h4, N, fun n hn => ?_⟩
  · exact (List.perm_ext_iff_of_nodup h2 (by decide)).2 (fun c => (h3 c).trans (hletters c))
  obtain ⟨lines, h5, h6⟩ := hN n hn
  refine ⟨lines, ?_, h6⟩
  unfold program
  rw [show mainCall m.outside ("cryptarithm".toList :: l) = .call .cryptarithm kw from hcall]
  have h1' : cryptBuild m.ord defaultCryptarithm (decide (kwarg kw .avoidLeadingZeros = .bool true)) ⟨.empty, m.heap⟩ = (w, .ok letters) := h1
  have h5' : demoRun m.fmt (fun τ => cryptPrint τ defaultCryptarithm) (puzzleRun (m.solveArgs .minBound timeout limit) w .ok) n = .ok lines := h5
  simp only [e1, e2, e3, e4, cryptarithmDemo, h1', h5', printed, unlines]
  rfl

/-! ## Cases that meet the hypotheses -/

def exMachine : Machine :=
  { outside := exOutside, seconds := fun _ => some 500, clock := fun n => n, fmt := fun n => toString n, shuffle := fun l => l, ord := fun l => l, order := fun l => l,
    positions := fun l => l, content := fun _ => [], json := fun _ => none, graph := fun _ => none, colored := fun l c => l :: c, repr := fun t => '\'' :: t ++ ['\''], heap := heap0 }

/-- `satisfy queens -b 6 -s -l 2` -/
example : ∃ w qs front, queensBuild 6 ⟨.empty, exMachine.heap⟩ = (w, .ok qs) ∧ ModelShown (fun o => ∃ a b, o = .range a b 1) true w.model front ∧
    ∃ N, ∀ n ≥ N, ∃ lines, program exMachine ["queens".toList, "-b".toList, "6".toList, "-s".toList, "-l".toList, "2".toList] n = .text (front ++ unlines lines) ∧
      Report exMachine.fmt (QueensBoard 6) (fun B ls => ChessPicture 6 (Queen B) ls) (.int 2) .none lines :=
  have h6 : Means exMachine.outside (.size "6".toList) (.int 6) := .size ((pyInt_iff _ _).1 rfl)
  have h2 : Means exMachine.outside (.limit (some "2".toList)) (.int 2) := .limit ((pyInt_iff _ _).1 rfl)
  C74_queens exMachine (fun _ => .refl _) (ps := [.size "6".toList, .showModel, .limit (some "2".toList)]) (size := 6)
    (.short (p := .size "6".toList) (.short (p := .showModel) (.short (p := .limit (some "2".toList)) .nil)))
    (by simp [Piece.Belongs])
    (by simp [Piece.texts, PlainArg])
    (by
      intro p hp
      simp only [List.mem_cons, List.not_mem_nil, or_false] at hp
      rcases hp with rfl | rfl | rfl
      · exact ⟨_, h6⟩
      · exact ⟨_, .showModel⟩
      · exact ⟨_, h2⟩)
    (.inl ⟨[], _, _, rfl, rfl, h6, by decide⟩) (by decide)
    (.inl ⟨[_, _], _, [], rfl, rfl, h2, by decide⟩)
    (.inr ⟨by decide, rfl⟩)
    (.inl ⟨[_], _, [_], rfl, rfl, Means.showModel, by decide⟩)

/-- `satisfy einstein` -/
example : ∃ N, ∀ n ≥ N, ∃ last secs, program exMachine ["einstein".toList] n =
      .text (unlines (riddleText.map String.toList) ++ unlines (("\n=== solution 1 ===" :: streetLines ++ [last]).map String.toList)) ∧
    ((∃ k, ArgVal.none = .int k ∧ k ≤ 1 ∧ last = "\nFound 1 partial solution in " ++ exMachine.fmt secs ++ " seconds [limit reached]") ∨
     ((∀ k, ArgVal.none = .int k → 1 < k) ∧ last = "\nFound unique solution in " ++ exMachine.fmt secs ++ " seconds")) :=
  C74_einstein_text exMachine (fun _ => .refl _) .nil (by simp) (by simp) (by simp) (.inr ⟨by simp, rfl⟩) (.inr ⟨by simp, rfl⟩) (by simp [byDefault]) (.inr ⟨by simp, rfl⟩)

/-- `satisfy cryptarithm -s` -/
example := C74_cryptarithm_default exMachine (fun _ => .refl _) (fun _ => .refl _) (ps := [.showModel]) (.short (p := .showModel) .nil)
  (by simp [Piece.Belongs]) (by simp [Piece.texts]) (by intro p hp; simp only [List.mem_singleton] at hp; subst hp; exact ⟨_, .showModel⟩)
  (.inr ⟨by decide, rfl⟩) (.inr ⟨by decide, rfl⟩) (.inl ⟨[], _, [], rfl, rfl, Means.showModel, by decide⟩)

/-- `satisfy cryptarithm -s AB+A==C -l` -/
example : ∃ w letters avoid front, cryptBuild exMachine.ord "AB+A==C".toList avoid ⟨.empty, exMachine.heap⟩ = (w, .ok letters) ∧ letters.Nodup ∧
      (∀ c, c ∈ letters ↔ CLetter (.add (.word "AB".toList) (.word "A".toList)) (.word "C".toList) c) ∧
      ModelShown (fun o => ∃ d, o = .tuple d) true w.model front ∧
      ∃ N, ∀ n ≥ N, ∃ lines, program exMachine ["cryptarithm".toList, "-s".toList, "AB+A==C".toList, "-l".toList] n =
          .text ("AB+A==C".toList ++ "\n".toList ++ front ++ unlines lines) ∧
        Report exMachine.fmt (CSolution true letters (.add (.word "AB".toList) (.word "A".toList)) (.word "C".toList)) (EquationLines letters "AB+A==C".toList) .infinity .none lines :=
  C74_cryptarithm exMachine (fun _ => .refl _) (fun _ => .refl _) (pre := [.showModel]) (post := [.limit none])
    (.short (p := .showModel) .nil) (.short (p := .limit none) .nil) (by simp [Piece.Belongs]) (by simp [Piece.texts])
    (by
      intro p hp
      simp only [List.cons_append, List.nil_append, List.mem_cons, List.not_mem_nil, or_false] at hp
      rcases hp with rfl | rfl
      · exact ⟨_, .showModel⟩
      · exact ⟨_, .limitBare⟩)
    (by unfold PlainArg; decide) (by intro p hp; cases hp; simp [Piece.Bare])
    (.inl ⟨[_], _, [], rfl, rfl, .limitBare, by decide⟩) (.inr ⟨by decide, rfl⟩) (.inl ⟨[], _, [_], rfl, rfl, .showModel, by decide⟩)
    ⟨"AB+A".toList, "C".toList, rfl,
      .add (s := "AB".toList) (t := "A".toList) (.term (.factor (.word (w := "AB".toList) (by decide) (by decide))))
        (.factor (.word (w := "A".toList) (by decide) (by decide))),
      .term (.factor (.word (w := "C".toList) (by decide) (by decide)))⟩
    ⟨'A', "AB".toList, by decide, by decide, by decide⟩
    (by
      rintro ⟨_, n, hn⟩
      have hw : (CTree.word "C".toList).folded = .formula := by decide
      rw [hw] at hn
      cases hn)

end Satisfy.Props
