import Verif.Props.Defaults
/-!
# The default nonogram and the default graph: C74
-/

namespace Satisfy.Props
open Satisfy

/-! ## The nonogram -/

/-- A list of `n` zeros and ones. -/
def Bits (n : Nat) (l : List Int) : Prop := l.length = n ∧ ∀ v ∈ l, v = 0 ∨ v = 1

/-- A test passes on all lists of `n` zeros and ones. -/
def allBits : Nat → (List Int → Bool) → Bool
  | 0, p => p []
  | n + 1, p => allBits n (fun l => p (0 :: l)) && allBits n (fun l => p (1 :: l))

theorem allBits_ok : ∀ {n : Nat} {p : List Int → Bool}, allBits n p = true → ∀ l, Bits n l → p l = true
  | 0, _, h, [], _ => h
  | n + 1, _, h, v :: l, hl => by
    simp only [allBits, Bool.and_eq_true] at h
    have hb : Bits n l := ⟨by simpa using hl.1, fun w hw => hl.2 w (by simp [hw])⟩
    rcases hl.2 v (by simp) with rfl | rfl
    · exact allBits_ok (p := fun l => _) h.1 l hb
    · exact allBits_ok (p := fun l => _) h.2 l hb

/-- The only line of `n` cells with these runs that has the values `given` at some places is `l`, as far as the places `asked` are concerned. -/
def forced (n : Nat) (clue : List Int) (given asked : List (Nat × Int)) : Bool :=
  allBits n (fun l => !(runs l == clue && given.all (fun p => l.getD p.1 0 == p.2)) || asked.all (fun p => l.getD p.1 0 == p.2))

theorem forced_ok {n : Nat} {clue : List Int} {given asked : List (Nat × Int)} (h : forced n clue given asked = true) {l : List Int} (hl : Bits n l)
    (hr : runs l = clue) (hg : ∀ p ∈ given, l.getD p.1 0 = p.2) : ∀ p ∈ asked, l.getD p.1 0 = p.2 := by
  have := allBits_ok h l hl
  simp only [Bool.or_eq_true, Bool.not_eq_true', Bool.and_eq_false_iff, beq_eq_false_iff_ne, ne_eq, hr, not_true_eq_false, false_or] at this
  rcases this with h1 | h1
  · have : given.all (fun p => l.getD p.1 0 == p.2) = true := by
      rw [List.all_eq_true]; intro p hp; simpa using hg p hp
    rw [this] at h1; cases h1
  · rw [List.all_eq_true] at h1
    intro p hp
    simpa using h1 p hp

/-- The cells of a line. -/
def cells (l : List Int) : List (Nat × Int) := (List.range l.length).zip l

theorem eq_of_cells {l l' : List Int} (hlen : l.length = l'.length) (h : ∀ p ∈ cells l', l.getD p.1 0 = p.2) : l = l' := by
  apply List.ext_getElem hlen
  intro i h1 h2
  have hm : (i, l'[i]) ∈ cells l' := by
    unfold cells
    rw [List.mem_iff_getElem]
    exact ⟨i, by simpa using h2, by simp⟩
  have := h _ hm
  simpa [List.getD_eq_getElem?_getD, h1] using this

theorem forced_line {n : Nat} {clue l' : List Int} {given : List (Nat × Int)} (h : forced n clue given (cells l') = true) (hn : l'.length = n) {l : List Int} (hl : Bits n l)
    (hr : runs l = clue) (hg : ∀ p ∈ given, l.getD p.1 0 = p.2) : l = l' :=
  eq_of_cells (hl.1.trans hn.symm) (forced_ok h hl hr hg)

/-- The clues of the default nonogram. -/
def defaultRows : List (List Int) := [[], [4], [6], [2, 2], [2, 2], [6], [4], [2], [2], [2], [], []]

/-- Those of its columns. -/
def defaultColumns : List (List Int) := [[], [9], [9], [2, 2], [2, 2], [4], [4], []]

theorem default_nonogram :
    JsonText (fileText defaultNonogram) (.obj [("rows".toList, ofList (ofList ofInt) defaultRows), ("columns".toList, ofList (ofList ofInt) defaultColumns)]) :=
  jsonText_of (by decide +kernel)

/-- Its solution. -/
def defaultPicture : List (List Int) :=
  [[0, 0, 0, 0, 0, 0, 0, 0],
   [0, 1, 1, 1, 1, 0, 0, 0],
   [0, 1, 1, 1, 1, 1, 1, 0],
   [0, 1, 1, 0, 0, 1, 1, 0],
   [0, 1, 1, 0, 0, 1, 1, 0],
   [0, 1, 1, 1, 1, 1, 1, 0],
   [0, 1, 1, 1, 1, 0, 0, 0],
   [0, 1, 1, 0, 0, 0, 0, 0],
   [0, 1, 1, 0, 0, 0, 0, 0],
   [0, 1, 1, 0, 0, 0, 0, 0],
   [0, 0, 0, 0, 0, 0, 0, 0],
   [0, 0, 0, 0, 0, 0, 0, 0]]

theorem default_picture : Picture defaultRows defaultColumns defaultPicture :=
  ⟨rfl, by decide, by decide, by decide +kernel, by decide +kernel⟩

theorem default_picture_only {P : List (List Int)} (h : Picture defaultRows defaultColumns P) : P = defaultPicture := by
  obtain ⟨h1, h2, h3, h4, h5⟩ := h
  match P, h1 with
  | [r0, r1, r2, r3, r4, r5, r6, r7, r8, r9, r10, r11], _ =>
    have hm : ∀ r ∈ [r0, r1, r2, r3, r4, r5, r6, r7, r8, r9, r10, r11], Bits 8 r := fun r hr => ⟨h2 r hr, h3 r hr⟩
    have hcol : ∀ c, Bits 12 [r0.getD c 0, r1.getD c 0, r2.getD c 0, r3.getD c 0, r4.getD c 0, r5.getD c 0, r6.getD c 0, r7.getD c 0, r8.getD c 0, r9.getD c 0, r10.getD c 0, r11.getD c 0] := by
      refine fun c => ⟨rfl, fun v hv => ?_⟩
      have : v ∈ [r0, r1, r2, r3, r4, r5, r6, r7, r8, r9, r10, r11].map (fun r => r.getD c 0) := hv
      obtain ⟨r, hr, rfl⟩ := List.mem_map.1 this
      rw [List.getD_eq_getElem?_getD]
      cases e : r[c]? with
      | none => exact .inl rfl
      | some v => exact h3 r hr v (List.mem_of_getElem? e)
    simp only [List.mem_cons, List.not_mem_nil, or_false, forall_eq_or_imp, forall_eq] at hm
    obtain ⟨m0, m1, m2, m3, m4, m5, m6, m7, m8, m9, m10, m11⟩ := hm
    simp only [defaultRows, List.map_cons, List.map_nil, List.cons.injEq, and_true] at h4
    obtain ⟨k0, k1, k2, k3, k4, k5, k6, k7, k8, k9, k10, k11⟩ := h4
    have hr8 : List.range defaultColumns.length = [0, 1, 2, 3, 4, 5, 6, 7] := rfl
    rw [hr8] at h5
    simp only [defaultColumns, pixCol, List.map_cons, List.map_nil, List.cons.injEq, and_true] at h5
    obtain ⟨q0, q1, q2, q3, q4, q5, q6, q7⟩ := h5
    have blank : forced 8 [] [] (cells [0, 0, 0, 0, 0, 0, 0, 0]) = true := by decide +kernel
    have e0 := forced_line blank rfl m0 k0 (by simp)
    have e10 := forced_line blank rfl m10 k10 (by simp)
    have e11 := forced_line blank rfl m11 k11 (by simp)
    subst e0 e10 e11
    have blankCol : forced 12 [] [] (cells [0, 0, 0, 0, 0, 0, 0, 0, 0, 0, 0, 0]) = true := by decide +kernel
    have a0 := forced_line blankCol rfl (hcol 0) q0 (by simp)
    have a7 := forced_line blankCol rfl (hcol 7) q7 (by simp)
    have longCol : forced 12 [9] [(0, 0), (10, 0)] (cells [0, 1, 1, 1, 1, 1, 1, 1, 1, 1, 0, 0]) = true := by decide +kernel
    have a1 := forced_line longCol rfl (hcol 1) q1 (by simp)
    simp only [List.cons.injEq, and_true] at a0 a7 a1
    obtain ⟨_, a01, a02, a03, a04, a05, a06, a07, a08, a09, _⟩ := a0
    obtain ⟨_, a11, a12, a13, a14, a15, a16, a17, a18, a19, _⟩ := a1
    obtain ⟨_, a71, a72, a73, a74, a75, a76, a77, a78, a79, _⟩ := a7
    have row4 : forced 8 [4] [(0, 0), (1, 1)] (cells [0, 1, 1, 1, 1, 0, 0, 0]) = true := by decide +kernel
    have row6 : forced 8 [6] [(0, 0), (1, 1)] (cells [0, 1, 1, 1, 1, 1, 1, 0]) = true := by decide +kernel
    have row2 : forced 8 [2] [(0, 0), (1, 1)] (cells [0, 1, 1, 0, 0, 0, 0, 0]) = true := by decide +kernel
    have e1 := forced_line row4 rfl m1 k1 (by simp only [List.mem_cons, List.not_mem_nil, or_false, forall_eq_or_imp, forall_eq]; exact ⟨a01, a11⟩)
    have e2 := forced_line row6 rfl m2 k2 (by simp only [List.mem_cons, List.not_mem_nil, or_false, forall_eq_or_imp, forall_eq]; exact ⟨a02, a12⟩)
    have e5 := forced_line row6 rfl m5 k5 (by simp only [List.mem_cons, List.not_mem_nil, or_false, forall_eq_or_imp, forall_eq]; exact ⟨a05, a15⟩)
    have e6 := forced_line row4 rfl m6 k6 (by simp only [List.mem_cons, List.not_mem_nil, or_false, forall_eq_or_imp, forall_eq]; exact ⟨a06, a16⟩)
    have e7 := forced_line row2 rfl m7 k7 (by simp only [List.mem_cons, List.not_mem_nil, or_false, forall_eq_or_imp, forall_eq]; exact ⟨a07, a17⟩)
    have e8 := forced_line row2 rfl m8 k8 (by simp only [List.mem_cons, List.not_mem_nil, or_false, forall_eq_or_imp, forall_eq]; exact ⟨a08, a18⟩)
    have e9 := forced_line row2 rfl m9 k9 (by simp only [List.mem_cons, List.not_mem_nil, or_false, forall_eq_or_imp, forall_eq]; exact ⟨a09, a19⟩)
    subst e1 e2 e5 e6 e7 e8 e9
    have hole : forced 12 [2, 2] [(1, 1), (2, 1), (5, 1), (6, 1)] [(3, 0), (4, 0)] = true := by decide +kernel
    have b3 := forced_ok hole (hcol 3) q3 (by simp)
    have b4 := forced_ok hole (hcol 4) q4 (by simp)
    have b33 : r3.getD 3 0 = 0 := b3 (3, 0) (by simp)
    have b34 : r4.getD 3 0 = 0 := b3 (4, 0) (by simp)
    have b43 : r3.getD 4 0 = 0 := b4 (3, 0) (by simp)
    have b44 : r4.getD 4 0 = 0 := b4 (4, 0) (by simp)
    have row22 : forced 8 [2, 2] [(0, 0), (1, 1), (3, 0), (4, 0), (7, 0)] (cells [0, 1, 1, 0, 0, 1, 1, 0]) = true := by decide +kernel
    have e3 := forced_line row22 rfl m3 k3 (by simp only [List.mem_cons, List.not_mem_nil, or_false, forall_eq_or_imp, forall_eq]; exact ⟨a03, a13, b33, b43, a73⟩)
    have e4 := forced_line row22 rfl m4 k4 (by simp only [List.mem_cons, List.not_mem_nil, or_false, forall_eq_or_imp, forall_eq]; exact ⟨a04, a14, b34, b44, a74⟩)
    subst e3 e4
    rfl

/-- A report about a puzzle with exactly one solution, without limit and timeout. -/
theorem report_one {β : Type} {fmt : Int → String} {V : β → Prop} {shows : β → List (List Char) → Prop} {lines : List (List Char)} (h : Report fmt V shows .none .none lines) {x : β} (hx : V x)
    (hu : ∀ y, V y → y = x) :
    ∃ ls secs, shows x ls ∧ lines = "\n=== solution 1 ===".toList :: ls ++ [("\nFound unique solution in " ++ fmt secs ++ " seconds").toList] := by
  obtain ⟨L, body, last, secs, rfl, h2, h3, h4, h5⟩ := h
  rcases h5 with ⟨a1, _, a3⟩ | ⟨s, _, ⟨_, l, a3, _⟩ | ⟨_, ⟨t, a3⟩, _⟩⟩
  · have hL : L = [x] := by
      match L, h3, h4, a1 x hx with
      | [y], _, h4, _ => rw [hu y (h4 y (by simp))]
      | y :: z :: l, h3, h4, _ =>
        have e1 := hu y (h4 y (by simp))
        have e2 := hu z (h4 z (by simp))
        subst e1 e2
        simp at h3
    subst hL
    cases h2 with
    | cons hd tl =>
      cases tl
      rcases a3 with ⟨_, rfl⟩ | ⟨h, _⟩
      · exact ⟨_, secs, hd, by rw [List.append_nil]; rfl⟩
      · simp at h
  · cases a3
  · cases a3

theorem said_nonogram : "No input file - using default " ++ "nonogram" ++ ":" = "No input file - using default nonogram:" := by decide

theorem unlines_picture (a : List Char) (ls : List (List Char)) (hne : ls ≠ []) (b : List Char) :
    unlines (a :: [pyJoin '\n' ls] ++ [b]) = unlines (a :: ls ++ [b]) := by
  have h1 : unlines [pyJoin '\n' ls] = unlines ls := by
    rw [unlines_join ls hne, joinChars_pyJoin]
    simp [unlines]
  have h2 : ∀ m : List (List Char), unlines (a :: m ++ [b]) = unlines [a] ++ unlines m ++ unlines [b] := by
    intro m
    rw [← unlines_append, ← unlines_append]
    rfl
  rw [h2, h2, h1]

/-- `satisfy nonogram`: everything printed but the number of seconds. -/
theorem C74_nonogram_default (m : Machine) (hs : ∀ l, (m.shuffle l).Perm l) (hj : ReadsJson m) :
    ∃ N, ∀ n ≥ N, ∃ secs, program m ["nonogram".toList] n =
      .text (unlines (("No input file - using default nonogram:" :: defaultNonogram ++ ["", "\n=== solution 1 ===",
        "        ",
        " ####   ",
        " ###### ",
        " ##  ## ",
        " ##  ## ",
        " ###### ",
        " ####   ",
        " ##     ",
        " ##     ",
        " ##     ",
        "        ",
        "        ",
        "\nFound unique solution in " ++ m.fmt secs ++ " seconds"]).map String.toList)) := by
  obtain ⟨w, vs, front, _, h2, N, h3⟩ := C74_nonogram m hs (no_options m .nonogram) (input := .none) (.inr ⟨by simp, rfl⟩) (by simp)
    (.default (hj _ _ default_nonogram)) (rows := defaultRows) (cols := defaultColumns) rfl rfl rfl (by unfold PosClues; decide) (by unfold PosClues; decide)
    ⟨[4], by decide, by decide⟩
  refine ⟨N, fun n hn => ?_⟩
  obtain ⟨lines, h4, h5⟩ := h3 n hn
  have hfront : front = [] := by simpa [ModelShown] using h2
  subst hfront
  obtain ⟨ls, secs, h6, rfl⟩ := report_one h5 default_picture (fun _ h => default_picture_only h)
  refine ⟨secs, ?_⟩
  have e : (defaultPicture.map (fun row => row.map (fun v => if v = 0 then ' ' else '#'))) = ["        ", " ####   ", " ###### ", " ##  ## ", " ##  ## ", " ###### ",
      " ####   ", " ##     ", " ##     ", " ##     ", "        ", "        "].map String.toList := by decide
  unfold Drawing at h6
  subst h6
  rw [h4, said_nonogram, unlines_picture _ _ (by decide), e]
  refine congrArg Output.text ?_
  rw [← glue_lines]
  refine congrArg (fun t => unlines ("No input file - using default nonogram:".toList :: defaultNonogram.map String.toList ++ [[]]) ++ [] ++ unlines t) ?_
  generalize "\nFound unique solution in " ++ m.fmt secs ++ " seconds" = t
  simp only [List.map_cons, List.map_nil, List.cons_append, List.nil_append]

/-! ## The graph -/

/-- A node in a document. -/
def ofNode (x : List Char) : Json := .obj [("id".toList, .str x)]

/-- An edge in a document. -/
def ofLink (e : List Char × List Char) : Json := .obj [("source".toList, .str e.1), ("target".toList, .str e.2)]

/-- Specification: what `nx.node_link_graph` (before networkx 3.4) makes of a document for an undirected graph: the nodes in the order given, and the links as edges, in any order and
direction. -/
def ReadsGraph (m : Machine) : Prop :=
  ∀ fields nodes links, aget fields "directed".toList = some (.bool false) → aget fields "multigraph".toList = some (.bool false) →
    aget fields "nodes".toList = some (ofList ofNode nodes) → aget fields "links".toList = some (ofList ofLink links) → nodes.Nodup →
    (∀ e ∈ links, e.1 ∈ nodes ∧ e.2 ∈ nodes) →
    ∃ edges, m.graph (.obj fields) = some (nodes, edges) ∧ ∀ a b, (a, b) ∈ edges ∨ (b, a) ∈ edges ↔ (a, b) ∈ links ∨ (b, a) ∈ links

/-- The nodes of the default graph. -/
def defaultNodes : List (List Char) := ["node1", "node3", "node2", "node0", "node4"].map String.toList

/-- Its links. -/
def defaultLinks : List (List Char × List Char) :=
  [("node1", "node3"), ("node1", "node2"), ("node1", "node0"), ("node3", "node0"), ("node3", "node4"), ("node2", "node0"), ("node2", "node4"),
    ("node0", "node4")].map (fun e => (e.1.toList, e.2.toList))

/-- The fields of its document. -/
def defaultFields : List (List Char × Json) :=
  [("directed".toList, .bool false), ("graph".toList, .obj []), ("links".toList, ofList ofLink defaultLinks), ("multigraph".toList, .bool false),
    ("nodes".toList, ofList ofNode defaultNodes)]

theorem default_graph : JsonText (fileText defaultGraph) (.obj defaultFields) := jsonText_of (by decide +kernel)

/-- A labelling of the default graph. -/
def threeLabels (x y z : String) : List (List Char × List Char) :=
  [("node1", x), ("node3", y), ("node2", y), ("node0", z), ("node4", x)].map (fun p => (p.1.toList, p.2.toList))

/-- All labellings of the default graph. -/
def sixLabelings : List (List (List Char × List Char)) :=
  [threeLabels "red" "blue" "green", threeLabels "red" "green" "blue", threeLabels "blue" "red" "green", threeLabels "blue" "green" "red",
    threeLabels "green" "red" "blue", threeLabels "green" "blue" "red"]

/-- The default labels. -/
def rgb : List (List Char) := ["red", "blue", "green"].map String.toList

theorem labeling_edges {nodes labels : List (List Char)} {edges links : List (List Char × List Char)} {L : List (List Char × List Char)}
    (he : ∀ a b, (a, b) ∈ edges ∨ (b, a) ∈ edges ↔ (a, b) ∈ links ∨ (b, a) ∈ links) : Labeling nodes edges labels L ↔ Labeling nodes links labels L := by
  have key : ∀ {edges links : List (List Char × List Char)}, (∀ a b, (a, b) ∈ edges ∨ (b, a) ∈ edges ↔ (a, b) ∈ links ∨ (b, a) ∈ links) →
      Labeling nodes edges labels L → Labeling nodes links labels L := by
    rintro edges links he ⟨h1, h2, h3⟩
    refine ⟨h1, h2, fun e h x y hx hy => ?_⟩
    rcases (he e.1 e.2).2 (.inl h) with h | h
    · exact h3 _ h x y hx hy
    · exact (h3 _ h y x hy hx).symm
  exact ⟨key he, key (fun a b => (he a b).symm)⟩

/-- The labels fit. -/
def properLabels (a b c d e : List Char) : Bool := a != b && a != c && a != d && b != d && b != e && c != d && c != e && d != e

theorem default_labelings (L : List (List Char × List Char)) : Labeling defaultNodes defaultLinks rgb L ↔ L ∈ sixLabelings := by
  constructor
  · rintro ⟨h1, h2, h3⟩
    match L, h1 with
    | [(n1, a), (n2, b), (n3, c), (n4, d), (n5, e)], h1 =>
      simp only [List.map_cons, List.map_nil, defaultNodes, List.cons.injEq, and_true] at h1
      obtain ⟨rfl, rfl, rfl, rfl, rfl⟩ := h1
      have key : ∀ a ∈ rgb, ∀ b ∈ rgb, ∀ c ∈ rgb, ∀ d ∈ rgb, ∀ e ∈ rgb, properLabels a b c d e = true →
          [("node1".toList, a), ("node3".toList, b), ("node2".toList, c), ("node0".toList, d), ("node4".toList, e)] ∈ sixLabelings := by decide +kernel
      refine key a (h2 ("node1".toList, a) ?_) b (h2 ("node3".toList, b) ?_) c (h2 ("node2".toList, c) ?_) d (h2 ("node0".toList, d) ?_) e (h2 ("node4".toList, e) ?_) ?_
      iterate 5 simp
      simp only [properLabels, Bool.and_eq_true, bne_iff_ne]
      refine ⟨⟨⟨⟨⟨⟨⟨?_, ?_⟩, ?_⟩, ?_⟩, ?_⟩, ?_⟩, ?_⟩, ?_⟩
      · exact h3 ("node1".toList, "node3".toList) (by decide) _ _ (by simp) (by simp)
      · exact h3 ("node1".toList, "node2".toList) (by decide) _ _ (by simp) (by simp)
      · exact h3 ("node1".toList, "node0".toList) (by decide) _ _ (by simp) (by simp)
      · exact h3 ("node3".toList, "node0".toList) (by decide) _ _ (by simp) (by simp)
      · exact h3 ("node3".toList, "node4".toList) (by decide) _ _ (by simp) (by simp)
      · exact h3 ("node2".toList, "node0".toList) (by decide) _ _ (by simp) (by simp)
      · exact h3 ("node2".toList, "node4".toList) (by decide) _ _ (by simp) (by simp)
      · exact h3 ("node0".toList, "node4".toList) (by decide) _ _ (by simp) (by simp)
  · intro h
    have k1 : ∀ L ∈ sixLabelings, L.map Prod.fst = defaultNodes := by decide +kernel
    have k2 : ∀ L ∈ sixLabelings, ∀ p ∈ L, p.2 ∈ rgb := by decide +kernel
    have k3 : ∀ L ∈ sixLabelings, ∀ e ∈ defaultLinks, ∀ p ∈ L, ∀ q ∈ L, p.1 = e.1 → q.1 = e.2 → p.2 ≠ q.2 := by decide +kernel
    exact ⟨k1 L h, k2 L h, fun e he x y hx hy => k3 L h e he _ hx _ hy rfl rfl⟩

/-- `satisfy graph_labeling`: the six labellings, in some order, and that these are all. -/
theorem C74_graph_default (m : Machine) (hs : ∀ l, (m.shuffle l).Perm l) (hj : ReadsJson m) (hg : ReadsGraph m) :
    ∃ N, ∀ n ≥ N, ∃ L body secs, program m ["graph_labeling".toList] n =
        .text (unlines ("No input file - using default data:".toList :: defaultGraph.map String.toList ++ [[]] ++ body ++
          [("\nFound all 6 solutions in " ++ m.fmt secs ++ " seconds").toList])) ∧
      L.Perm sixLabelings ∧ Numbered (fun x ls => ∃ text, ls = [text] ∧ DictPicture m.repr m.repr x text) 1 L body := by
  obtain ⟨edges, g1, g2⟩ := hg defaultFields defaultNodes defaultLinks rfl rfl rfl rfl (by decide) (by decide)
  have he : ∀ e ∈ edges, e.1 ∈ defaultNodes ∧ e.2 ∈ defaultNodes := by
    intro e he
    have k : ∀ l ∈ defaultLinks, l.1 ∈ defaultNodes ∧ l.2 ∈ defaultNodes := by decide
    rcases (g2 e.1 e.2).1 (.inl he) with h | h
    · exact k _ h
    · exact (k _ h).symm
  obtain ⟨w, d, front, _, h2, N, h3⟩ := C74_graph m hs (no_options m .graphLabeling) (input := .none) (.inr ⟨by simp, rfl⟩) (labels := rgb)
    (.inr ⟨by simp, by decide⟩) (.default (hj _ _ default_graph)) g1 (by decide) (by decide) he (by decide)
  refine ⟨N, fun n hn => ?_⟩
  obtain ⟨lines, h4, L, body, last, secs, rfl, r2, r3, r4, r5⟩ := h3 n hn
  have hfront : front = [] := by simpa [ModelShown] using h2
  subst hfront
  have hV : ∀ x, Labeling defaultNodes edges rgb x ↔ x ∈ sixLabelings := fun x => (labeling_edges g2).trans (default_labelings x)
  rcases r5 with ⟨a1, _, a3⟩ | ⟨s, _, ⟨_, l, a3, _⟩ | ⟨_, ⟨t, a3⟩, _⟩⟩
  · have hp : L.Perm sixLabelings := by
      rw [List.perm_ext_iff_of_nodup r3 (by decide)]
      exact fun x => ⟨fun h => (hV x).1 (r4 x h), fun h => a1 x ((hV x).2 h)⟩
    have h6 : L.length = 6 := hp.length_eq
    refine ⟨L, body, secs, ?_, hp, r2⟩
    rcases a3 with ⟨h, _⟩ | ⟨_, rfl⟩
    · omega
    · rw [h4, said_data, h6, List.append_nil, ← unlines_append, ← List.append_assoc]
      rfl
  · cases a3
  · cases a3

/-! ## Concrete cases -/

/-- The node of a document. -/
def nodeOf : Json → Option (List Char)
  | .obj [(_, .str x)] => some x
  | _ => none

/-- The edge of a document. -/
def linkOf : Json → Option (List Char × List Char)
  | .obj [(_, .str x), (_, .str y)] => some (x, y)
  | _ => none

/-- The graph of a document. -/
def graphOf : Json → Option (List (List Char) × List (List Char × List Char))
  | .obj fields => match aget fields "nodes".toList, aget fields "links".toList with
    | some n, some l => match Json.list nodeOf n, Json.list linkOf l with
      | some nodes, some links => some (nodes, links)
      | _, _ => none
    | _, _ => none
  | _ => none

/-- A machine that reads documents and graphs. -/
def graphMachine : Machine := { jsonMachine with graph := graphOf }

theorem graphMachine_reads : ReadsJson graphMachine ∧ ReadsGraph graphMachine := by
  refine ⟨fun _ _ h => readJson_iff.2 h, ?_⟩
  intro fields nodes links _ _ h1 h2 _ _
  refine ⟨links, ?_, fun a b => Iff.rfl⟩
  show graphOf (.obj fields) = _
  have e1 : Json.list nodeOf (ofList ofNode nodes) = some nodes := Json.list_map (f := nodeOf) (g := ofNode) (fun _ => rfl) nodes
  have e2 : Json.list linkOf (ofList ofLink links) = some links := Json.list_map (f := linkOf) (g := ofLink) (fun _ => rfl) links
  rw [graphOf, h1, h2]
  simp only [e1, e2]

/-- `satisfy graph_labeling` -/
example := C74_graph_default graphMachine (fun _ => .refl _) graphMachine_reads.1 graphMachine_reads.2

/-- `satisfy nonogram` -/
example := C74_nonogram_default graphMachine (fun _ => .refl _) graphMachine_reads.1

end Satisfy.Props
