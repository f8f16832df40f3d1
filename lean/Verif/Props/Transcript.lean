import Verif.Props.Boards
import Verif.Lemmas.Map
import Verif.Props.Image
import Verif.Props.Nonogram
import Verif.Props.Einstein
/-!
# What a demo prints: C56
-/

namespace Satisfy.Props
open Satisfy

/-- `natStr` is the decimal notation. -/
theorem natStr_toString (n : Nat) : natStr n = (toString n).toList := by
  have e : (toString n).toList = Nat.toDigits 10 n := by
    change (String.ofList (Nat.toDigits 10 n)).toList = _
    simp
  rw [e]
  induction n using Nat.strongRecOn with
  | _ n ih =>
    have hd : ∀ d < 10, digitChar d = d.digitChar := by decide
    rw [natStr_eq]
    split
    · rename_i h
      rw [Nat.toDigits_of_lt_base h, hd n h]
    · rename_i h
      rw [ih (n / 10) (by omega) (by change (String.ofList (Nat.toDigits 10 (n / 10))).toList = _; simp)]
      have := Nat.toDigits_append_toDigits (b := 10) (n := n / 10) (d := n % 10) (by omega) (by omega) (by omega)
      rw [Nat.toDigits_of_lt_base (by omega : n % 10 < 10)] at this
      rw [hd _ (by omega), this]
      congr 1
      omega

/-- Specification: solutions numbered from `k` on, each heading followed by the lines of the solution. -/
inductive Numbered {β : Type} (shows : β → List (List Char) → Prop) : Nat → List β → List (List Char) → Prop
  | nil (k : Nat) : Numbered shows k [] []
  | cons {k : Nat} {b : β} {bs : List β} {ls rest : List (List Char)} : shows b ls → Numbered shows (k + 1) bs rest →
      Numbered shows k (b :: bs) (("\n=== solution " ++ toString k ++ " ===").toList :: ls ++ rest)

theorem loop_numbered {β : Type} {pr : β → Res (List (List Char))} {L : List β} (h : ∀ b ∈ L, ∃ ls, pr b = .ok ls) (k : Nat) :
    ∃ body, demoLoop pr k L = .ok body ∧ Numbered (fun b ls => pr b = .ok ls) (k + 1) L body := by
  induction L generalizing k with
  | nil => exact ⟨[], rfl, .nil _⟩
  | cons b L ih =>
    obtain ⟨ls, hls⟩ := h b (by simp)
    obtain ⟨rest, h1, h2⟩ := ih (fun x hx => h x (by simp [hx])) (k + 1)
    refine ⟨_, ?_, .cons hls h2⟩
    rw [demoLoop, hls]
    simp only [ok_bind, h1]
    rw [natStr_toString, String.toList_append, String.toList_append]
    rfl

/-- C56: at every moment a demo has printed solutions, numbered 1, 2, …; each is right and none comes twice. -/
theorem C56_running {β : Type} {a : SolveArgs} {w : World} {dec : Subst → Res β} {V : β → Prop} (hp : PuzzleRun a (puzzleRun a w dec) V)
    (pr : β → Res (List (List Char))) (hpr : ∀ b, V b → ∃ ls, pr b = .ok ls) (fmt : Int → String) (n : Nat) :
    ∃ L body, Numbered (fun b ls => pr b = .ok ls) 1 L body ∧ L.Nodup ∧ (∀ b ∈ L, V b) ∧
      (demoRun fmt pr (puzzleRun a w dec) n = .ok body ∨
       ∃ last, demoRun fmt pr (puzzleRun a w dec) n = .ok (body ++ [last])) := by
  obtain ⟨L, hL, hV⟩ := hp.sound n
  obtain ⟨body, h1, h2⟩ := loop_numbered (fun b hb => hpr b (hV b hb)) 0
  refine ⟨L, body, h2, hp.once n L hL, hV, ?_⟩
  unfold demoRun
  rw [hL]
  simp only [ok_bind, h1]
  cases (puzzleRun a w dec n).2.phase <;> first | exact .inl rfl | exact .inr ⟨_, rfl⟩

theorem each_length {α β : Type} {f : α → Res β} {l : List α} {L : List β} (h : Res.each f l = .ok L) : L.length = l.length :=
  (Res.each_forall.1 h).length_eq.symm

/-- C56: what a demo has printed when it ends: the solutions, numbered, and one line about their number. "unique": what is shown is the only solution of
the puzzle; "all k": what is shown are all solutions of the puzzle, and there are `k`, not 1; "k partial": `k` are shown, and the search was interrupted for
the reason given. -/
theorem C56_transcript {β : Type} {a : SolveArgs} (hs : ∀ l, (a.shuffle l).Perm l) {w : World} {dec : Subst → Res β} {V : β → Prop}
    (hp : PuzzleRun a (puzzleRun a w dec) V) (pr : β → Res (List (List Char))) (hpr : ∀ b, V b → ∃ ls, pr b = .ok ls) (fmt : Int → String) :
    ∃ N, ∀ n ≥ N, ∃ L body last secs, demoRun fmt pr (puzzleRun a w dec) n = .ok (body ++ [String.toList last]) ∧
      Numbered (fun b ls => pr b = .ok ls) 1 L body ∧ L.Nodup ∧ (∀ b ∈ L, V b) ∧
      ((last = "\nFound unique solution in " ++ fmt secs ++ " seconds" ∧ L.length = 1 ∧ ∀ b, V b → b ∈ L) ∨
       (∃ k, k ≠ 1 ∧ last = "\nFound all " ++ toString k ++ " solutions in " ++ fmt secs ++ " seconds" ∧ L.length = k ∧ ∀ b, V b → b ∈ L) ∨
       (∃ k s why, last = "\nFound " ++ toString k ++ " partial solution" ++ s ++ " in " ++ fmt secs ++ " seconds [" ++ why ++ " reached]" ∧
         L.length = k ∧ (s = "" ∧ k = 1 ∨ s = "s" ∧ k ≠ 1) ∧
         (why = "limit" ∧ (∃ l, a.solver.limit = some l ∧ k = max 1 l.toNat) ∨ why = "timeout" ∧ a.solver.timeout.isSome))) := by
  obtain ⟨N, hN⟩ := hp.complete
  refine ⟨N, fun n hn => ?_⟩
  obtain ⟨L, hL, hph, hrest⟩ := hN n hn
  obtain ⟨L', hL', hV⟩ := hp.sound n
  rw [hL] at hL'; cases hL'
  obtain ⟨body, h1, h2⟩ := loop_numbered (fun b hb => hpr b (hV b hb)) 0
  have hcount : (puzzleRun a w dec n).2.timer.stats.1 = L.length := by
    rw [each_length hL]
    exact congrArg Prod.fst (C22_stats a hs w.model passive w.heap n).2.2
  refine ⟨L, body, (puzzleRun a w dec n).2.statsText fmt, (puzzleRun a w dec n).2.timer.stats.2, ?_, h2, hp.once n L hL, hV, ?_⟩
  · unfold demoRun
    rw [hL]
    simp only [ok_bind, h1, hph]
    rfl
  · have htext : (puzzleRun a w dec n).2.statsText fmt =
        solveStatsText L.length (fmt (puzzleRun a w dec n).2.timer.stats.2) (puzzleRun a w dec n).2.interrupt := by
      unfold Gen.statsText; rw [hcount]
    rw [htext]
    rcases hrest with ⟨hi, hall⟩ | ⟨hi, l, hl, hlen⟩ | ⟨hi, ht⟩
    · rw [hi]
      by_cases h1 : L.length = 1
      · exact .inl ⟨by simp [solveStatsText, h1], h1, fun b => (hall b).2⟩
      · exact .inr (.inl ⟨L.length, h1, by simp [solveStatsText, h1, String.append_assoc], rfl, fun b => (hall b).2⟩)
    · rw [hi]
      refine .inr (.inr ⟨L.length, if L.length = 1 then "" else "s", "limit", rfl, rfl, ?_, .inl ⟨rfl, l, hl, hlen⟩⟩)
      split <;> simp_all
    · rw [hi]
      refine .inr (.inr ⟨L.length, if L.length = 1 then "" else "s", "timeout", rfl, rfl, ?_, .inr ⟨rfl, ht⟩⟩)
      split <;> simp_all

/-! ## The demos -/

/-- Specification: the text is the list of all objects with the property `V`, numbered, each one as `shows` says, and a last line with their number. -/
def Listing {β : Type} (fmt : Int → String) (V : β → Prop) (shows : β → List (List Char) → Prop) (lines : List (List Char)) : Prop :=
  ∃ L body last secs, lines = body ++ [String.toList last] ∧ Numbered shows 1 L body ∧ L.Nodup ∧ (∀ b, b ∈ L ↔ V b) ∧
    (L.length = 1 ∧ last = "\nFound unique solution in " ++ fmt secs ++ " seconds" ∨
     L.length ≠ 1 ∧ last = "\nFound all " ++ toString L.length ++ " solutions in " ++ fmt secs ++ " seconds")

theorem Numbered.mono {β : Type} {p q : β → List (List Char) → Prop} {k : Nat} {L : List β} {body : List (List Char)} (h : Numbered p k L body)
    (hpq : ∀ b ∈ L, ∀ ls, p b ls → q b ls) : Numbered q k L body := by
  induction h with
  | nil k => exact .nil k
  | @cons k b bs ls rest h1 h2 ih => exact .cons (hpq b (by simp) ls h1) (ih (fun b' hb => hpq b' (by simp [hb])))

/-- Without limit and timeout a demo prints a complete list. -/
theorem C56_complete {β : Type} {a : SolveArgs} (hs : ∀ l, (a.shuffle l).Perm l) (hlim : a.solver.limit = none) (htmo : a.solver.timeout = none)
    {w : World} {dec : Subst → Res β} {V : β → Prop} (hp : PuzzleRun a (puzzleRun a w dec) V) (pr : β → Res (List (List Char)))
    (shows : β → List (List Char) → Prop) (hpr : ∀ b, V b → ∃ ls, pr b = .ok ls ∧ shows b ls) (fmt : Int → String) :
    ∃ N, ∀ n ≥ N, ∃ lines, demoRun fmt pr (puzzleRun a w dec) n = .ok lines ∧ Listing fmt V shows lines := by
  obtain ⟨N, hN⟩ := C56_transcript hs hp pr (fun b hb => (hpr b hb).imp fun _ h => h.1) fmt
  refine ⟨N, fun n hn => ?_⟩
  obtain ⟨L, body, last, secs, h1, h2, h3, h4, h5⟩ := hN n hn
  have h2' : Numbered shows 1 L body := h2.mono (fun b hb ls hls => by
    obtain ⟨ls', e, hsh⟩ := hpr b (h4 b hb)
    rw [hls] at e; cases e; exact hsh)
  refine ⟨_, h1, L, body, last, secs, rfl, h2', h3, ?_, ?_⟩
  · rcases h5 with ⟨_, _, h⟩ | ⟨_, _, _, _, h⟩ | ⟨k, s, why, _, _, _, ⟨_, l, h, _⟩ | ⟨_, h⟩⟩
    · exact fun b => ⟨h4 b, h b⟩
    · exact fun b => ⟨h4 b, h b⟩
    · rw [hlim] at h; cases h
    · rw [htmo] at h; cases h
  · rcases h5 with ⟨h, h', _⟩ | ⟨k, hk, h, h', _⟩ | ⟨k, s, why, _, _, _, ⟨_, l, h, _⟩ | ⟨_, h⟩⟩
    · exact .inl ⟨h', h⟩
    · exact .inr ⟨by rw [h']; exact hk, by rw [h, h']⟩
    · rw [hlim] at h; cases h
    · rw [htmo] at h; cases h

/-- The queens demo: all placements, each with its picture. -/
theorem C56_queens (h : Heap) (a : SolveArgs) (hs : ∀ l, (a.shuffle l).Perm l) (ha : a.adds = []) (hlim : a.solver.limit = none)
    (htmo : a.solver.timeout = none) (n : Nat) (hn : 0 < n) (fmt : Int → String) :
    ∃ w queens, queensBuild n ⟨.empty, h⟩ = (w, .ok queens) ∧ ∃ N, ∀ k ≥ N, ∃ lines,
      demoRun fmt (fun B => .ok (queensPicture n B)) (puzzleRun a w (queensDecode n queens)) k = .ok lines ∧
      Listing fmt (QueensBoard n) (fun B ls => ChessPicture n (Queen B) ls) lines := by
  obtain ⟨w, queens, h1, h2⟩ := C36_partial h a hs ha n hn
  exact ⟨w, queens, h1, C56_complete hs hlim htmo h2 _ _ (fun B hB => ⟨_, rfl, C55_queens hn hB⟩) fmt⟩

/-- The Sudoku demo, called with `--limit` without a number: all completions, each with its picture. -/
theorem C56_sudoku (h : Heap) (a : SolveArgs) (hs : ∀ l, (a.shuffle l).Perm l) (ha : a.adds = []) (hlim : a.solver.limit = oneByDefault .infinity)
    (htmo : a.solver.timeout = none) (ord : List Int → List Int) (ho : ∀ l, (ord l).Perm l) (schema : List (List (Option Int))) (h9 : Schema9 schema) (hno : NoConflict schema) (hbl : HasBlank schema)
    (fmt : Int → String) :
    ∃ w vars, sudokuBuild ord schema ⟨.empty, h⟩ = (w, .ok vars) ∧ ∃ N, ∀ k ≥ N, ∃ lines,
      demoRun fmt sudokuBoard (puzzleRun a w (sudokuDecode schema vars)) k = .ok lines ∧
      Listing fmt (Completion schema) (fun B ls => GridPicture (fun r c => (schemaAt B (r, c)).getD none) ls) lines := by
  obtain ⟨w, vars, h1, h2⟩ := C35_partial h a hs ha ord ho schema h9 hno hbl
  exact ⟨w, vars, h1, C56_complete hs (by rw [hlim]; rfl) htmo h2 _ _ (fun B hB => C55_sudoku (completion_schema hB).1) fmt⟩

/-- With a limit and without a timeout, a demo that says "unique" or "all" has shown fewer solutions than the limit, or none. -/
theorem C56_limit {β : Type} {a : SolveArgs} (hs : ∀ l, (a.shuffle l).Perm l) {l : Int} (hlim : a.solver.limit = some l) (htmo : a.solver.timeout = none)
    {w : World} (hn : w.model.vars.keys.Nodup) {dec : Subst → Res β} {V : β → Prop} (hp : PuzzleRun a (puzzleRun a w dec) V)
    (pr : β → Res (List (List Char))) (hpr : ∀ b, V b → ∃ ls, pr b = .ok ls) (fmt : Int → String) :
    ∃ N, ∀ n ≥ N, ∃ L body last secs, demoRun fmt pr (puzzleRun a w dec) n = .ok (body ++ [String.toList last]) ∧
      Numbered (fun b ls => pr b = .ok ls) 1 L body ∧ L.Nodup ∧ (∀ b ∈ L, V b) ∧
      (((∀ b, V b → b ∈ L) ∧ (L = [] ∨ L.length < l) ∧
         (L.length = 1 ∧ last = "\nFound unique solution in " ++ fmt secs ++ " seconds" ∨
          L.length ≠ 1 ∧ last = "\nFound all " ++ toString L.length ++ " solutions in " ++ fmt secs ++ " seconds")) ∨
       (L.length = max 1 l.toNat ∧ ∃ s, (s = "" ∧ L.length = 1 ∨ s = "s" ∧ L.length ≠ 1) ∧
         last = "\nFound " ++ toString L.length ++ " partial solution" ++ s ++ " in " ++ fmt secs ++ " seconds [limit reached]")) := by
  obtain ⟨D, ph, ho⟩ := outcome a w.model w.heap hs hn
  obtain ⟨M, hM, hc⟩ := ho (some l) none a.clock
  have hcut : a.cut (some l) none a.clock = a := by
    obtain ⟨⟨p, t, li, c⟩, ad, sh, cl⟩ := a
    simp only at hlim htmo
    subst hlim; subst htmo; rfl
  rw [hcut] at hM hc
  obtain ⟨N', hN'⟩ := hp.complete
  refine ⟨N', fun n hn => ?_⟩
  obtain ⟨L, hL, hph, hrest⟩ := hN' n hn
  obtain ⟨L', hL', hV⟩ := hp.sound n
  rw [hL] at hL'; cases hL'
  obtain ⟨body, h1, h2⟩ := loop_numbered (fun b hb => hpr b (hV b hb)) 0
  have hcount : (puzzleRun a w dec n).2.timer.stats.1 = L.length := by
    rw [each_length hL]
    exact congrArg Prod.fst (C22_stats a hs w.model passive w.heap n).2.2
  have hterm : (solveRun a w.model passive n w.heap).2.1.phase.terminal := by
    have : (solveRun a w.model passive n w.heap).2.1.phase = .finished := hph
    rw [this]; trivial
  rw [over_unique hM hterm] at hc
  refine ⟨L, body, (puzzleRun a w dec n).2.statsText fmt, (puzzleRun a w dec n).2.timer.stats.2, ?_, h2, hp.once n L hL, hV, ?_⟩
  · unfold demoRun
    rw [hL]
    simp only [ok_bind, h1, hph]
    rfl
  · have htext : (puzzleRun a w dec n).2.statsText fmt =
        solveStatsText L.length (fmt (puzzleRun a w dec n).2.timer.stats.2) (puzzleRun a w dec n).2.interrupt := by
      unfold Gen.statsText; rw [hcount]
    rw [htext]
    rcases hrest with ⟨hi, hall⟩ | ⟨hi, l', hl, hlen⟩ | ⟨hi, ht⟩
    · left
      refine ⟨fun b => (hall b).2, ?_, ?_⟩
      · cases hc with
        | natural _ _ _ h4 =>
          rcases h4 with h4 | h4
          · left
            have := each_length hL
            rw [show (solveRun a w.model passive n w.heap).1 = [] from h4] at this
            exact List.length_eq_zero_iff.1 this
          · right
            rw [each_length hL]
            exact h4 l rfl
        | timeout _ _ h _ _ =>
          have hi : (solveRun a w.model passive n w.heap).2.1.interrupt = none := hi
          rw [hi] at h; cases h
        | limit _ _ _ h _ =>
          have hi : (solveRun a w.model passive n w.heap).2.1.interrupt = none := hi
          rw [hi] at h; cases h
      · rw [hi]
        by_cases h1 : L.length = 1
        · exact .inl ⟨h1, by simp [solveStatsText, h1]⟩
        · exact .inr ⟨h1, by simp [solveStatsText, h1, String.append_assoc]⟩
    · rw [hlim] at hl; cases hl
      rw [hi]
      refine .inr ⟨hlen, if L.length = 1 then "" else "s", by split <;> simp_all, ?_⟩
      have e : ∀ x : String, x ++ " seconds [" ++ "limit" ++ " reached]" = x ++ " seconds [limit reached]" := by
        intro x; rw [String.append_assoc, String.append_assoc]; rfl
      exact e _
    · rw [htmo] at ht; cases ht

/-- The Sudoku demo without a limit on the command line stops after one solution and calls it partial: also if it is the only one. -/
theorem C56_sudoku_default (h : Heap) (a : SolveArgs) (hs : ∀ l, (a.shuffle l).Perm l) (ha : a.adds = []) (hlim : a.solver.limit = oneByDefault .none)
    (htmo : a.solver.timeout = none) (ord : List Int → List Int) (ho : ∀ l, (ord l).Perm l) (schema : List (List (Option Int))) (h9 : Schema9 schema) (hno : NoConflict schema) (hbl : HasBlank schema)
    (hex : ∃ B, Completion schema B) (fmt : Int → String) :
    ∃ w vars, sudokuBuild ord schema ⟨.empty, h⟩ = (w, .ok vars) ∧ ∃ N, ∀ k ≥ N, ∃ B ls secs, Completion schema B ∧ sudokuBoard B = .ok ls ∧
      demoRun fmt sudokuBoard (puzzleRun a w (sudokuDecode schema vars)) k = .ok
        ("\n=== solution 1 ===".toList :: ls ++ [("\nFound 1 partial solution in " ++ fmt secs ++ " seconds [limit reached]").toList]) := by
  obtain ⟨w, vars, h1, h2⟩ := C35_partial h a hs ha ord ho schema h9 hno hbl
  obtain ⟨w', h1', hb⟩ := sudoku_built h ho h9.shape
  rw [h1] at h1'; cases h1'
  refine ⟨w, _, h1, ?_⟩
  obtain ⟨N, hN⟩ := C56_limit hs (l := 1) (by rw [hlim]; rfl) htmo (hb.ok hs ha).wf.names h2 sudokuBoard
    (fun B hB => (C55_sudoku (completion_schema hB).1).imp fun _ h => h.1) fmt
  refine ⟨N, fun k hk => ?_⟩
  obtain ⟨L, body, last, secs, e, hnum, _, hV, hc⟩ := hN k hk
  rcases hc with ⟨hall, hlt, _⟩ | ⟨hlen, s, hs', hl⟩
  · exfalso
    obtain ⟨B, hB⟩ := hex
    have hm := hall B hB
    rcases hlt with rfl | hlt
    · cases hm
    · have : L.length = 0 := by omega
      rw [List.length_eq_zero_iff.1 this] at hm; cases hm
  · cases hnum with
    | nil => simp at hlen
    | @cons _ b bs ls rest hb1 hrest =>
      cases hrest with
      | cons => simp at hlen
      | nil =>
        rcases hs' with ⟨rfl, _⟩ | ⟨_, h⟩
        · refine ⟨b, ls, secs, hV b (by simp), hb1, ?_⟩
          have e1 : toString (List.length [b]) = "1" := by rw [List.length_singleton]; decide
          have e2 : ("\n=== solution " ++ toString 1 ++ " ===") = "\n=== solution 1 ===" := by decide
          have e3 : ("\nFound " ++ "1" ++ " partial solution" ++ "" ++ " in ") = "\nFound 1 partial solution in " := by decide
          rw [e, hl, List.append_nil, e1, e2, e3]
        · simp at h

/-- The nonogram demo: all pictures, each drawn with a `#` for every black cell and a blank for every white one. -/
theorem C56_nonogram (h : Heap) {rows cols : List (List Int)} (hr : PosClues rows) (hc : PosClues cols) (hne : ∃ L ∈ rows ++ cols, L ≠ []) :
    ∃ w vs, nonoBuild rows cols ⟨.empty, h⟩ = (w, .ok vs) ∧
      ∀ a : SolveArgs, (∀ l, (a.shuffle l).Perm l) → a.adds = [] → a.solver.limit = none → a.solver.timeout = none → ∀ fmt : Int → String,
        ∃ N, ∀ k ≥ N, ∃ lines, demoRun fmt nonoPrint (puzzleRun a w (nonoDecode cols.length vs)) k = .ok lines ∧
          Listing fmt (Picture rows cols)
            (fun P ls => ls = [pyJoin '\n' (P.map (fun row => row.map (fun v => if v = 0 then ' ' else '#')))]) lines := by
  obtain ⟨w, vs, hw, hp⟩ := C38_partial h hr hc hne
  refine ⟨w, vs, hw, fun a hs ha hlim htmo fmt => C56_complete hs hlim htmo (hp a hs ha) _ _ (fun P hP => ?_) fmt⟩
  refine ⟨_, ?_, rfl⟩
  unfold nonoPrint
  rw [pixmapToImage_eq]
  show Except.ok _ = Except.ok _
  congr 3
  apply List.map_congr_left
  intro row hrow
  rw [maxLength_rect hP.width (List.ne_nil_of_mem hrow), hP.width row hrow, Nat.sub_self, List.replicate_zero, List.append_nil]

/-- The riddle demo: with no limit or timeout, always the same text but for the time. -/
theorem C56_riddle (h : Heap) (a : SolveArgs) (hs : ∀ l, (a.shuffle l).Perm l) (ha : a.adds = []) (hlim : a.solver.limit = none)
    (htmo : a.solver.timeout = none) (fmt : Int → String) :
    ∃ w vs, einBuild ⟨.empty, h⟩ = (w, .ok vs) ∧ ∃ N, ∀ k ≥ N, ∃ secs,
      (demoRun fmt einPrint (puzzleRun a w (einDecode vs)) k).map (List.map String.ofList) = .ok [
        "\n=== solution 1 ===",
        "    The Norwegian, who lives in the first yellow house, drinks water, smokes Dunhill and has cats.",
        "    The Dane, who lives in the second blue house, drinks tea, smokes Blend and has a horse.",
        "    The English, who lives in the third red house, drinks milk, smokes Pall Mall and has birds.",
        "[*] The German, who lives in the fourth green house, drinks coffee, smokes Prince and has a zebra.",
        "    The Swede, who lives in the fifth white house, drinks beer, smokes Blue Master and has a dog.",
        "\nFound unique solution in " ++ fmt secs ++ " seconds"] := by
  obtain ⟨w, vs, hw, hp⟩ := C43_riddle h a hs ha
  refine ⟨w, vs, hw, ?_⟩
  have hpr : ∀ z, Riddle z → ∃ ls, einPrint z = .ok ls ∧ einPrint z = .ok ls := by
    intro z hz
    have := C55_riddle hz
    cases he : einPrint z with
    | error e => rw [he] at this; cases this
    | ok ls => exact ⟨ls, rfl, rfl⟩
  obtain ⟨N, hN⟩ := C56_complete hs hlim htmo hp einPrint _ hpr fmt
  refine ⟨N, fun k hk => ?_⟩
  obtain ⟨lines, e, L, body, last, secs, rfl, hnum, hnd, hall, hlast⟩ := hN k hk
  have hmem : einStreet ∈ L := (hall _).2 einStreet_riddle
  have heq : ∀ z ∈ L, z = einStreet := fun z hz => riddle_unique ((hall z).1 hz)
  have hL : L = [einStreet] := by
    cases L with
    | nil => cases hmem
    | cons x xs =>
      cases xs with
      | nil => rw [heq x (by simp)]
      | cons y ys =>
        exfalso
        have h1 := heq x (by simp)
        have h2 := heq y (by simp)
        rw [h1, h2] at hnd
        simp at hnd
  subst hL
  refine ⟨secs, ?_⟩
  rcases hlast with ⟨_, rfl⟩ | ⟨h, _⟩
  · cases hnum with
    | @cons _ b bs ls rest hb1 hrest =>
      cases hrest
      have h5 := C55_riddle einStreet_riddle
      rw [hb1] at h5
      rw [e]
      simp only [Except.map, Except.ok.injEq] at h5 ⊢
      rw [List.append_nil, List.map_append, List.map_cons, h5]
      have e2 : ("\n=== solution " ++ toString 1 ++ " ===") = "\n=== solution 1 ===" := by decide
      rw [e2]
      simp only [String.ofList_toList, List.map_cons, List.map_nil, List.cons_append, List.nil_append]
  · exact absurd rfl h

/-! ## Examples -/

-- the hypotheses of the Sudoku theorems, with a completion
example : Schema9 (grid9 none none) ∧ NoConflict (grid9 none none) ∧ HasBlank (grid9 none none) ∧ Completion (grid9 none none) (grid9 (some 1) (some 8)) :=
  grid9_good

-- a whole transcript: the two pictures of a small nonogram
example :
    let p := built (nonoBuild [[1], [1]] [[1], [1]]) []
    (demoRun (fun _ => "0.000") nonoPrint (puzzleRun { solver := {} } p.1 (nonoDecode 2 p.2)) 40).map (List.map String.ofList) = .ok
      ["\n=== solution 1 ===", " #\n# ", "\n=== solution 2 ===", "# \n #", "\nFound all 2 solutions in 0.000 seconds"] := by decide +kernel

-- and with a limit
example :
    let p := built (nonoBuild [[1], [1]] [[1], [1]]) []
    (demoRun (fun _ => "0.000") nonoPrint (puzzleRun { solver := { limit := some 1 } } p.1 (nonoDecode 2 p.2)) 40).map (List.map String.ofList) = .ok
      ["\n=== solution 1 ===", " #\n# ", "\nFound 1 partial solution in 0.000 seconds [limit reached]"] := by decide +kernel

-- the queens demo on the smallest board
example :
    let p := built (queensBuild 1) []
    (demoRun (fun _ => "0.000") (fun B => .ok (queensPicture 1 B)) (puzzleRun { solver := {} } p.1 (queensDecode 1 p.2)) 10).map (List.map String.ofList) = .ok
      ["\n=== solution 1 ===", "┌───┐", "│ ♛ │", "└───┘", "\nFound unique solution in 0.000 seconds"] := by decide +kernel

end Satisfy.Props
