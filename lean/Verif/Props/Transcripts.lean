import Verif.Report
import Verif.Props.Transcript
import Verif.Props.Map
import Verif.Props.Demo
import Verif.Props.Cryptarithm
/-!
# The transcripts of the map, graph and cryptarithm demos: C56
-/

namespace Satisfy.Props
open Satisfy

/-- With limit 1 a demo shows one solution and calls it partial, or says that there are none, and then there are none. -/
theorem C56_one {β : Type} {a : SolveArgs} (hs : ∀ l, (a.shuffle l).Perm l) (hlim : a.solver.limit = some 1) (htmo : a.solver.timeout = none)
    {w : World} (hn : w.model.vars.keys.Nodup) {dec : Subst → Res β} {V : β → Prop} (hp : PuzzleRun a (puzzleRun a w dec) V)
    (pr : β → Res (List (List Char))) (hpr : ∀ b, V b → ∃ ls, pr b = .ok ls) (fmt : Int → String) :
    ∃ N, ∀ n ≥ N, ∃ secs,
      (∃ b ls, V b ∧ pr b = .ok ls ∧ demoRun fmt pr (puzzleRun a w dec) n = .ok
        ("\n=== solution 1 ===".toList :: ls ++ [("\nFound 1 partial solution in " ++ fmt secs ++ " seconds [limit reached]").toList])) ∨
      ((∀ b, ¬ V b) ∧ demoRun fmt pr (puzzleRun a w dec) n = .ok [("\nFound all 0 solutions in " ++ fmt secs ++ " seconds").toList]) := by
  obtain ⟨N, hN⟩ := C56_limit hs hlim htmo hn hp pr hpr fmt
  refine ⟨N, fun n hn => ?_⟩
  obtain ⟨L, body, last, secs, e, hnum, _, hV, hc⟩ := hN n hn
  refine ⟨secs, ?_⟩
  rcases hc with ⟨hall, hlt, hlast⟩ | ⟨hlen, s, hs', hl⟩
  · have hL : L = [] := by
      rcases hlt with h | h
      · exact h
      · exact List.length_eq_zero_iff.1 (by omega)
    subst hL
    refine .inr ⟨fun b hb => by simpa using hall b hb, ?_⟩
    rcases hlast with ⟨h, _⟩ | ⟨_, rfl⟩
    · simp at h
    · cases hnum
      rw [e]
      have : ("\nFound all " ++ toString (List.length ([] : List β)) ++ " solutions in ") = "\nFound all 0 solutions in " := by
        rw [List.length_nil]; decide
      rw [this]; rfl
  · cases hnum with
    | nil => simp at hlen
    | @cons _ b bs ls rest hb1 hrest =>
      cases hrest with
      | cons => simp at hlen
      | nil =>
        rcases hs' with ⟨rfl, _⟩ | ⟨_, h⟩
        · refine .inl ⟨b, ls, hV b (by simp), hb1, ?_⟩
          have e1 : toString (List.length [b]) = "1" := by rw [List.length_singleton]; decide
          have e2 : ("\n=== solution " ++ toString 1 ++ " ===") = "\n=== solution 1 ===" := by decide
          have e3 : ("\nFound " ++ "1" ++ " partial solution" ++ "" ++ " in ") = "\nFound 1 partial solution in " := by decide
          rw [e, hl, List.append_nil, e1, e2, e3]
        · simp at h

/-! ## Maps -/

/-- Specification: the text consists of one line per row, and each line of one piece per cell: a blank, or the coloured label. -/
def MapPicture {β : Type} (colored : Char → β → List Char) (M : List (List (Option (Char × β)))) (text : List Char) : Prop :=
  ∃ lines, text = pyJoin '\n' lines ∧ List.Forall₂ (fun row line => ∃ pieces, line = List.flatten pieces ∧
    List.Forall₂ (fun x piece => (x = none → piece = [' ']) ∧ ∀ l c, x = some (l, c) → piece = colored l c) row pieces) M lines

theorem joinChars_pyJoin (c : Char) (l : List (List Char)) : joinChars [c] l = pyJoin c l := by
  induction l with
  | nil => rfl
  | cons p l ih => cases l with
    | nil => rfl
    | cons q l => simp [joinChars, pyJoin] at ih ⊢; exact ih

theorem mapText_picture {β : Type} (colored : Char → β → List Char) (M : List (List (Option (Char × β)))) : MapPicture colored M (mapText colored M) := by
  refine ⟨_, joinChars_pyJoin _ _, ?_⟩
  rw [List.forall₂_map_right_iff]
  refine List.forall₂_same.2 (fun row _ => ⟨_, rfl, ?_⟩)
  rw [List.forall₂_map_right_iff]
  refine List.forall₂_same.2 (fun x _ => ⟨fun h => by rw [h], fun l c h => by rw [h]⟩)

/-- The map demo, called with `--limit` without a number: all colourings of the map, each with its picture. -/
theorem C56_map {β : Type} (h : Heap) (a : SolveArgs) (hs : ∀ l, (a.shuffle l).Perm l) (ha : a.adds = []) (hlim : a.solver.limit = oneByDefault .infinity)
    (htmo : a.solver.timeout = none) (ord : List Pos → List Pos) (ho : ∀ l, (ord l).Perm l) (map : List (List Char)) (hne : map ≠ []) (colors : List β)
    (hl : colors.Nodup) (hreg : ∃ p x, cell map p = some x ∧ ¬ Blank x) (colored : Char → β → List Char) (fmt : Int → String) :
    ∃ w groups d num, mapBuild ord map colors ⟨.empty, h⟩ = (w, .ok (some (groups, d))) ∧ Numbering map num ∧ ∃ N, ∀ k ≥ N, ∃ lines,
      demoRun fmt (fun M => .ok [mapText colored M]) (puzzleRun a w (mapDecode ord map groups d colors)) k = .ok lines ∧
      Listing fmt (Painted map num colors) (fun M ls => ∃ text, ls = [text] ∧ MapPicture colored M text) lines := by
  obtain ⟨w, groups, d, num, h1, h2, h3, _⟩ := C42_colorings h a hs ha ord ho map hne colors hl
  exact ⟨w, groups, d, num, h1, h2, C56_complete hs (by rw [hlim]; rfl) htmo (h3 hreg) _ _
    (fun M _ => ⟨_, rfl, _, rfl, mapText_picture colored M⟩) fmt⟩

theorem map_names {β : Type} (h : Heap) {ord : List Pos → List Pos} (ho : ∀ l, (ord l).Perm l) {map : List (List Char)} (hne : map ≠ []) {colors : List β}
    {w : World} {x : Option (List (List Pos) × List (Nat × Expr))} (hw : mapBuild ord map colors ⟨.empty, h⟩ = (w, .ok x)) : w.model.vars.keys.Nodup := by
  obtain ⟨groups, h1, hg⟩ := mapRegions_ok ho hne
  have hedges : ∀ e ∈ mapEdges 0 groups, e.1 ∈ List.range groups.length ∧ e.2 ∈ List.range groups.length := by
    intro e he
    obtain ⟨i, j, G, G', hi, hj, _, rfl, _⟩ := (mem_mapEdges _ _ _).1 he
    have := (List.getElem?_eq_some_iff.1 hi).1
    have := (List.getElem?_eq_some_iff.1 hj).1
    simp only [List.mem_range, Nat.zero_add]
    omega
  obtain ⟨w', hw', hb⟩ := graph_built h (labels := colors) List.nodup_range hedges
  unfold mapBuild at hw
  simp only [Api.bind_apply, Api.lift, h1, hw'] at hw
  cases hw
  exact (hb.ok (a := exArgs) (fun l => .refl _) rfl).wf.names

/-- `M` with every cell changed, knowing its position. -/
def remap {γ δ : Type} (f : Pos → γ → δ) (M : List (List γ)) : List (List δ) :=
  M.mapIdx (fun r row => row.mapIdx (fun c x => f ((r : Int), (c : Int)) x))

theorem cell_remap {γ δ : Type} (f : Pos → γ → δ) (M : List (List γ)) (p : Pos) : cell (remap f M) p = (cell M p).map (f p) := by
  unfold cell remap
  split
  · rename_i h
    have e : ((p.1.toNat : Int), (p.2.toNat : Int)) = p := by
      rw [Int.toNat_of_nonneg h.1, Int.toNat_of_nonneg h.2]
    simp only [List.getElem?_mapIdx]
    cases M[p.1.toNat]? with
    | none => rfl
    | some row => simp only [Option.map_some, Option.bind_some, List.getElem?_mapIdx, e]
  · rfl

/-- If there is a colouring, there is one with the labels of the class. -/
theorem painted_of_coloring {β : Type} {map : List (List Char)} {num : Pos → Nat} {colors : List β} (hnum : Numbering map num)
    {M : List (List (Option (Char × β)))} (hM : Coloring map colors M) : ∃ M', Painted map num colors M' := by
  have hg : ∀ n, ∃ l, "0123456789ABCDEFGHIJKLMNOPQRSTUVWXYZ".toList[n % 36]? = some l := by
    intro n
    have : n % 36 < "0123456789ABCDEFGHIJKLMNOPQRSTUVWXYZ".toList.length := Nat.mod_lt _ (by decide)
    exact ⟨_, List.getElem?_eq_getElem this⟩
  choose lab hlab using hg
  refine ⟨remap (fun p x => x.map (fun y => (lab (num p), y.2))) M, ⟨?_, ?_, ?_, ?_, ?_⟩, ?_⟩
  · rw [← hM.shape]
    apply List.ext_getElem
    · simp [remap]
    · intro i h1 h2; simp [remap]
  · intro p x hp hx
    rw [cell_remap, hM.blanks p x hp hx]; rfl
  · intro p x hp hx
    obtain ⟨l, c, h1, h2⟩ := hM.colored p x hp hx
    exact ⟨_, c, by rw [cell_remap, h1]; rfl, h2⟩
  · intro p q x hadj hp hq hx
    have h1 := hM.same p q x hadj hp hq hx
    have h2 : num p = num q := (hnum.region p q x x hp hq hx hx).2 ⟨x, hx, hp, .single ⟨hadj, hq⟩⟩
    rw [cell_remap, cell_remap, h1, h2]
  · intro p q x y hadj hp hq hx hy hxy l c l' c' e e'
    rw [cell_remap] at e e'
    obtain ⟨l1, c1, h1, _⟩ := hM.colored p x hp hx
    obtain ⟨l2, c2, h2, _⟩ := hM.colored q y hq hy
    rw [h1] at e; rw [h2] at e'
    cases e; cases e'
    exact hM.different p q x y hadj hp hq hx hy hxy _ _ _ _ h1 h2
  · intro p l c e
    rw [cell_remap] at e
    cases hc : cell M p with
    | none => rw [hc] at e; cases e
    | some x =>
      rw [hc] at e
      cases x with
      | none => cases e
      | some y => cases e; exact hlab _

/-- The map demo without a limit on the command line: one colouring, called partial, or, if the colours do not suffice, none. -/
theorem C56_map_default {β : Type} (h : Heap) (a : SolveArgs) (hs : ∀ l, (a.shuffle l).Perm l) (ha : a.adds = []) (hlim : a.solver.limit = oneByDefault .none)
    (htmo : a.solver.timeout = none) (ord : List Pos → List Pos) (ho : ∀ l, (ord l).Perm l) (map : List (List Char)) (hne : map ≠ []) (colors : List β)
    (hl : colors.Nodup) (hreg : ∃ p x, cell map p = some x ∧ ¬ Blank x) (colored : Char → β → List Char) (fmt : Int → String) :
    ∃ w groups d, mapBuild ord map colors ⟨.empty, h⟩ = (w, .ok (some (groups, d))) ∧ ∃ N, ∀ k ≥ N, ∃ secs,
      (∃ M text, Coloring map colors M ∧ MapPicture colored M text ∧
        demoRun fmt (fun M => .ok [mapText colored M]) (puzzleRun a w (mapDecode ord map groups d colors)) k = .ok
          ["\n=== solution 1 ===".toList, text, ("\nFound 1 partial solution in " ++ fmt secs ++ " seconds [limit reached]").toList]) ∨
      ((∀ M, ¬ Coloring map colors M) ∧
        demoRun fmt (fun M => .ok [mapText colored M]) (puzzleRun a w (mapDecode ord map groups d colors)) k = .ok
          [("\nFound all 0 solutions in " ++ fmt secs ++ " seconds").toList]) := by
  obtain ⟨w, groups, d, num, h1, h2, h3, _⟩ := C42_colorings h a hs ha ord ho map hne colors hl
  refine ⟨w, groups, d, h1, ?_⟩
  obtain ⟨N, hN⟩ := C56_one hs (by rw [hlim]; rfl) htmo (map_names h ho hne h1) (h3 hreg) (fun M => .ok [mapText colored M]) (fun M _ => ⟨_, rfl⟩) fmt
  refine ⟨N, fun k hk => ?_⟩
  obtain ⟨secs, ⟨M, ls, hM, hls, e⟩ | ⟨hno, e⟩⟩ := hN k hk
  · cases hls
    exact ⟨secs, .inl ⟨M, _, hM.1, mapText_picture colored M, e⟩⟩
  · exact ⟨secs, .inr ⟨fun M' hM' => (painted_of_coloring h2 hM').elim hno, e⟩⟩

/-! ## Graphs -/

theorem joinChars_intercalate (sep : List Char) (l : List (List Char)) : joinChars sep l = List.intercalate sep l := by
  induction l with
  | nil => rfl
  | cons p l ih => cases l with
    | nil => simp [joinChars, List.intercalate]
    | cons q l => rw [joinChars, ih]; simp [List.intercalate]; simp

/-- Specification: a dict as Python prints it. -/
def DictPicture {α β : Type} (ra : α → List Char) (rb : β → List Char) (L : List (α × β)) (text : List Char) : Prop :=
  ∃ entries, text = ['{'] ++ List.intercalate [',', ' '] entries ++ ['}'] ∧ List.Forall₂ (fun p e => e = ra p.1 ++ [':', ' '] ++ rb p.2) L entries

theorem dictText_picture {α β : Type} (ra : α → List Char) (rb : β → List Char) (L : List (α × β)) : DictPicture ra rb L (dictText ra rb L) :=
  ⟨_, by rw [← joinChars_intercalate]; rfl, List.forall₂_map_right_iff.2 (List.forall₂_same.2 (fun _ _ => rfl))⟩

/-- The graph demo: all proper labelings, each printed as a dict. -/
theorem C56_graph {α β : Type} [DecidableEq α] (h : Heap) (a : SolveArgs) (hs : ∀ l, (a.shuffle l).Perm l) (ha : a.adds = []) (hlim : a.solver.limit = none)
    (htmo : a.solver.timeout = none) (nodes : List α) (edges : List (α × α)) (labels : List β) (hn : nodes.Nodup) (hne : nodes ≠ [])
    (he : ∀ e ∈ edges, e.1 ∈ nodes ∧ e.2 ∈ nodes) (hl : labels.Nodup) (ra : α → List Char) (rb : β → List Char) (fmt : Int → String) :
    ∃ w d, graphBuild nodes edges labels ⟨.empty, h⟩ = (w, .ok d) ∧ ∃ N, ∀ k ≥ N, ∃ lines,
      demoRun fmt (fun L => .ok [dictText ra rb L]) (puzzleRun a w (graphDecode d labels)) k = .ok lines ∧
      Listing fmt (Labeling nodes edges labels) (fun L ls => ∃ text, ls = [text] ∧ DictPicture ra rb L text) lines := by
  obtain ⟨w, d, h1, h2⟩ := C37_partial h a hs ha nodes edges labels hn hne he hl
  exact ⟨w, d, h1, C56_complete hs hlim htmo h2 _ _ (fun L _ => ⟨[dictText ra rb L], rfl, _, rfl, dictText_picture ra rb L⟩) fmt⟩

/-! ## Cryptarithms -/

/-- A demo that prints the solutions of the model themselves, and one that prints what they are decoded to. -/
theorem demoRun_decoded {β : Type} {a : SolveArgs} {w : World} {dec : Subst → Res β} {pr : Subst → Res (List (List Char))}
    {pr' : β → Res (List (List Char))} {n : Nat} (fmt : Int → String)
    (hd : ∀ τ ∈ (solveRun a w.model passive n w.heap).1, ∃ b, dec τ = .ok b ∧ pr τ = pr' b) :
    demoRun fmt pr (puzzleRun a w .ok) n = demoRun fmt pr' (puzzleRun a w dec) n := by
  have hloop : ∀ (L : List Subst) k, (∀ τ ∈ L, ∃ b, dec τ = .ok b ∧ pr τ = pr' b) →
      Res.each .ok L = .ok L ∧ ∃ B, Res.each dec L = .ok B ∧ demoLoop pr k L = demoLoop pr' k B := by
    intro L
    induction L with
    | nil => intro k _; exact ⟨rfl, [], rfl, rfl⟩
    | cons τ L ih =>
      intro k hL
      obtain ⟨b, hb, hpb⟩ := hL τ (by simp)
      obtain ⟨h1, B, h2, h3⟩ := ih (k + 1) (fun τ hτ => hL τ (by simp [hτ]))
      refine ⟨by simp [Res.each, h1], b :: B, by simp [Res.each, hb, h2], ?_⟩
      rw [demoLoop, demoLoop, hpb, h3]
  obtain ⟨h1, B, h2, h3⟩ := hloop _ 0 hd
  unfold demoRun
  have e1 : (puzzleRun a w Except.ok n).1 = .ok (solveRun a w.model passive n w.heap).1 := h1
  have e2 : (puzzleRun a w dec n).1 = .ok B := h2
  rw [e1, e2]
  simp only [ok_bind, h3]
  rfl

/-- Specification: the digits of the letters in alphabetical order, and the source with the digits filled in, which is a true equation exactly if the
source has no lower case letters: those are not replaced. -/
def EquationLines (letters source : List Char) (L : List (Char × Int)) (lines : List (List Char)) : Prop :=
  ∃ (ks : List Char) (D : Char → Nat), ks.Perm letters ∧ ks.Pairwise (fun c c' => c.toNat < c'.toNat) ∧ (∀ c v, (c, v) ∈ L → v = D c) ∧
    lines = ks.map (fun c => c :: " = ".toList ++ [Char.ofNat (48 + D c)]) ++
      ["==> ".toList ++ withDigits (fun c => if c ∈ letters then some (D c) else none) source] ∧
    (TrueEquation (withDigits (fun c => if c ∈ letters then some (D c) else none) source) ↔ ∀ c ∈ source, ¬ ('a' ≤ c ∧ c ≤ 'z'))

theorem equationLines_unique {letters source : List Char} {L : List (Char × Int)} (hL : L.map Prod.fst = letters) {ls ls' : List (List Char)}
    (h : EquationLines letters source L ls) (h' : EquationLines letters source L ls') : ls = ls' := by
  obtain ⟨ks, D, h1, h2, h3, rfl, _⟩ := h
  obtain ⟨ks', D', h1', h2', h3', rfl, _⟩ := h'
  have hks : ks = ks' := (h1.trans h1'.symm).eq_of_pairwise (fun c c' _ _ h h' => by omega) h2 h2'
  subst hks
  have hD : ∀ c ∈ letters, D c = D' c := by
    intro c hc
    rw [← hL] at hc
    obtain ⟨⟨_, v⟩, hm, rfl⟩ := List.mem_map.1 hc
    have := (h3 _ _ hm).symm.trans (h3' _ _ hm)
    exact_mod_cast this
  congr 1
  · exact List.map_congr_left (fun c hc => by rw [hD c (h1.subset hc)])
  · have : (fun c => if c ∈ letters then some (D c) else none) = (fun c => if c ∈ letters then some (D' c) else none) := by
      funext c
      by_cases hc : c ∈ letters
      · rw [if_pos hc, if_pos hc, hD c hc]
      · rw [if_neg hc, if_neg hc]
    rw [this]

theorem forall₂_left {α β : Type} {R : α → β → Prop} {l : List α} {L : List β} (h : List.Forall₂ R l L) {b : β} (hb : b ∈ L) : ∃ x ∈ l, R x b := by
  induction h with
  | nil => cases hb
  | cons h1 _ ih =>
    rcases List.mem_cons.1 hb with rfl | hb
    · exact ⟨_, by simp, h1⟩
    · obtain ⟨x, hx, hr⟩ := ih hb
      exact ⟨x, by simp [hx], hr⟩

/-- The cryptarithm demo: all solutions, each as a true equation if the source is in capital letters. -/
theorem C56_cryptarithm (h : Heap) (a : SolveArgs) (hs : ∀ l, (a.shuffle l).Perm l) (ha : a.adds = []) (hlim : a.solver.limit = none)
    (htmo : a.solver.timeout = none) (ord : List Char → List Char) (ho : ∀ l, (ord l).Perm l) (source : List Char) (l r : CTree)
    (hsrc : CSource source l r) (hne : ∃ c, CLetter l r c)
    (hbc : ¬ BothConstant l r) (avoid : Bool) (fmt : Int → String) :
    ∃ w letters, cryptBuild ord source avoid ⟨.empty, h⟩ = (w, .ok letters) ∧ letters.Nodup ∧ (∀ c, c ∈ letters ↔ CLetter l r c) ∧ ∃ N, ∀ k ≥ N, ∃ lines,
      demoRun fmt (fun τ => cryptPrint τ source) (puzzleRun a w .ok) k = .ok lines ∧
      Listing fmt (CSolution true letters l r) (EquationLines letters source) lines := by
  obtain ⟨w, letters, h1, hnd, h2, h3, _⟩ := C41_partial h a hs ha ord ho source l r hsrc hne hbc avoid
  obtain ⟨w', letters', h1', _, h4⟩ := C47_text h a hs ha ord ho source l r hsrc hbc avoid
  rw [h1] at h1'; cases h1'
  refine ⟨w, letters, h1, hnd, h2, ?_⟩
  classical
  -- what is printed for a solution depends only on the digits of its letters
  have key : ∀ n, ∀ τ ∈ (solveRun a w.model passive n w.heap).1, ∃ b ls, cryptDecode letters τ = .ok b ∧ b.map Prod.fst = letters ∧
      EquationLines letters source b ls ∧ cryptPrint τ source = .ok ls := by
    intro n τ hτ
    obtain ⟨ks, D, p1, p2, p3, p4, p5⟩ := h4 n τ hτ
    have hd : cryptDecode letters τ = .ok (letters.map (fun c => (c, (D c : Int)))) :=
      Res.each_ok (g := fun c => (c, (D c : Int))) (fun c hc => by rw [Subst.at_ok (p3 c hc)]; rfl)
    refine ⟨_, _, hd, by simp [Function.comp_def], ⟨ks, D, p1, p2, fun c v hm => ?_, rfl, p5⟩, p4⟩
    obtain ⟨c', _, e⟩ := List.mem_map.1 hm
    cases e; rfl
  let pr' : List (Char × Int) → Res (List (List Char)) := fun b => if hx : ∃ ls, EquationLines letters source b ls then .ok hx.choose else .error .keyError
  have hpr' : ∀ b ls, b.map Prod.fst = letters → EquationLines letters source b ls → pr' b = .ok ls := by
    intro b ls hb hls
    have hx : ∃ ls, EquationLines letters source b ls := ⟨ls, hls⟩
    simp only [pr', dif_pos hx]
    rw [equationLines_unique hb hx.choose_spec hls]
  have hdemo : ∀ n, demoRun fmt (fun τ => cryptPrint τ source) (puzzleRun a w .ok) n = demoRun fmt pr' (puzzleRun a w (cryptDecode letters)) n := by
    intro n
    refine demoRun_decoded fmt (fun τ hτ => ?_)
    obtain ⟨b, ls, k1, k2, k3, k4⟩ := key n τ hτ
    exact ⟨b, k1, by rw [k4, hpr' b ls k2 k3]⟩
  obtain ⟨N, hN⟩ := C56_complete hs hlim htmo h3 pr' (EquationLines letters source) (fun b hb => by
    obtain ⟨N, hN⟩ := h3.complete
    obtain ⟨L, hL, _, hc⟩ := hN N (Nat.le_refl N)
    have hmem : b ∈ L := by
      rcases hc with ⟨_, hall⟩ | ⟨_, l, hl, _⟩ | ⟨_, ht⟩
      · exact (hall b).2 hb
      · rw [hlim] at hl; cases hl
      · rw [htmo] at ht; cases ht
    obtain ⟨τ, hτ, hd⟩ := forall₂_left (Res.each_forall.1 hL) hmem
    obtain ⟨b', ls, k1, k2, k3, _⟩ := key N τ hτ
    rw [hd] at k1; cases k1
    exact ⟨ls, hpr' b ls k2 k3, k3⟩) fmt
  refine ⟨N, fun k hk => ?_⟩
  rw [hdemo k]
  exact hN k hk

/-! ## Examples -/

-- the hypotheses of the theorems
example := C56_map (β := Nat) heap0 { solver := {} } (fun l => .refl _) rfl rfl rfl id (fun l => .refl _) map1 (by decide) [7, 8] (by decide)
  ⟨(0, 0), 'A', by decide, by unfold Blank; decide⟩ (fun l _ => [l]) (fun _ => "0.000")

example := C56_map_default (β := Nat) heap0 { solver := { limit := some 1 } } (fun l => .refl _) rfl rfl rfl id (fun l => .refl _) map1 (by decide) [7, 8]
  (by decide) ⟨(0, 0), 'A', by decide, by unfold Blank; decide⟩ (fun l _ => [l]) (fun _ => "0.000")

example := C56_graph heap0 { solver := {} } (fun l => .refl _) rfl rfl rfl ["u", "v"] [("u", "v")] [7, 8] (by decide) (by decide) (by decide) (by decide)
  (fun s => '\'' :: s.toList ++ ['\'']) natStr (fun _ => "0.000")

example := C56_cryptarithm heap0 { solver := {} } (fun l => .refl _) rfl rfl rfl id (fun l => .refl _) _ _ _ source_AB
  ⟨'A', ['A', 'B'], by decide, by decide, by decide⟩ (by rintro ⟨⟨m, hm⟩, _⟩; simp [CTree.folded, IsDigit] at hm) true (fun _ => "0.000")

-- two regions, two colours (written in brackets behind the label)
example :
    let p := built (mapBuild id map1 [7, 8]) none
    (demoRun (fun _ => "0.000") (fun M => .ok [mapText (fun l c => l :: '[' :: natStr c ++ [']']) M])
      (puzzleRun { solver := {} } p.1 (fun τ => match p.2 with | some (groups, d) => mapDecode id map1 groups d [7, 8] τ | none => .error .keyError)) 40).map
        (List.map String.ofList) = .ok
      ["\n=== solution 1 ===", "0[8]0[8]\n 1[7]", "\n=== solution 2 ===", "0[7]0[7]\n 1[8]", "\nFound all 2 solutions in 0.000 seconds"] := by decide +kernel

-- an edge, two labels
example :
    let p := built (graphBuild ["u", "v"] [("u", "v")] ["a", "b"]) []
    (demoRun (fun _ => "0.000") (fun L => .ok [dictText (fun s => '\'' :: s.toList ++ ['\'']) (fun s => '\'' :: s.toList ++ ['\'']) L])
      (puzzleRun orderedArgs p.1 (graphDecode p.2 ["a", "b"])) 40).map (List.map String.ofList) = .ok
      ["\n=== solution 1 ===", "{'u': 'a', 'v': 'b'}", "\n=== solution 2 ===", "{'u': 'b', 'v': 'a'}", "\nFound all 2 solutions in 0.000 seconds"] := by decide +kernel

end Satisfy.Props
