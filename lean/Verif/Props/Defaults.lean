import Verif.Props.JsonRead
/-!
# The programs on their default data: C74
-/

namespace Satisfy.Props
open Satisfy

/-! ## Concrete cases -/

/-- A command without arguments. -/
theorem no_options (m : Machine) (c : Command) : Options m c [] [] .none .none false :=
  ⟨.nil, by simp, by simp, by simp, .inr ⟨by simp, rfl⟩, .inr ⟨by simp, rfl⟩, .inr ⟨by simp, rfl⟩⟩

/-- Specification: `json.loads` reads every document. -/
def ReadsJson (m : Machine) : Prop := ∀ t j, JsonText t j → m.json t = some j

/-- The default sudoku. -/
def defaultSchema : List (List (Option Int)) :=
  [[some 8, some 0, some 0, some 0, some 0, some 0, some 0, some 0, some 0],
   [some 0, some 0, some 3, some 6, some 0, some 0, some 0, some 0, some 0],
   [some 0, some 7, some 0, some 0, some 9, some 0, some 2, some 0, some 0],
   [some 0, some 5, some 0, some 0, some 0, some 7, some 0, some 0, some 0],
   [some 0, some 0, some 0, some 0, some 4, some 5, some 7, some 0, some 0],
   [some 0, some 0, some 0, some 1, some 0, some 0, some 0, some 3, some 0],
   [some 0, some 0, some 1, some 0, some 0, some 0, some 0, some 6, some 8],
   [some 0, some 0, some 8, some 5, some 0, some 0, some 0, some 1, some 0],
   [some 0, some 9, some 0, some 0, some 0, some 0, some 4, some 0, some 0]]

/-- Its solution. -/
def defaultAnswer : List (List Nat) :=
  [[8, 1, 2, 7, 5, 3, 6, 4, 9], [9, 4, 3, 6, 8, 2, 1, 7, 5], [6, 7, 5, 4, 9, 1, 2, 8, 3], [1, 5, 4, 2, 3, 7, 8, 9, 6], [3, 6, 9, 8, 4, 5, 7, 2, 1],
   [2, 8, 7, 1, 6, 9, 5, 3, 4], [5, 2, 1, 9, 7, 4, 3, 6, 8], [4, 3, 8, 5, 2, 6, 9, 1, 7], [7, 9, 6, 3, 1, 8, 4, 5, 2]]

theorem default_sudoku : JsonText (fileText defaultSudoku) (ofList (ofList ofEntry) defaultSchema) := jsonText_of (by decide +kernel)

theorem conflict_free {schema B : List (List (Option Int))} (h9 : Schema9 schema) (h : Completion schema B) : NoConflict schema := by
  obtain ⟨g, _, g1, g2⟩ := h
  obtain ⟨_, g3⟩ := completion_iff.1 g2
  have hlt : ∀ r c v, Given schema r c v → r < 9 ∧ c < 9 := by
    rintro r c v ⟨row, h1, h2, _⟩
    have hr := (List.getElem?_eq_some_iff.1 h1).1
    have hc := (List.getElem?_eq_some_iff.1 h2).1
    rw [h9.cols row (List.mem_of_getElem? h1)] at hc
    rw [h9.rows] at hr
    exact ⟨hr, hc⟩
  intro r c r' c' v hv hv' hp
  obtain ⟨b1, b2⟩ := hlt r c v hv
  obtain ⟨b3, b4⟩ := hlt r' c' v hv'
  obtain ⟨row, a1, a2, a3⟩ := hv
  obtain ⟨row', a1', a2', a3'⟩ := hv'
  exact g3 r b1 c b2 r' b3 c' b4 hp (by rw [g1 r c row v a1 a2 a3, g1 r' c' row' v a1' a2' a3'])

theorem default_nine : Schema9 defaultSchema := by
  refine ⟨rfl, by decide, fun row hrow v hv => ?_⟩
  have key : ∀ row ∈ defaultSchema, ∀ v ∈ row, isAccepted v = true := by decide
  simpa [isAccepted] using key row hrow _ hv

theorem default_completion : ∃ B, Completion defaultSchema B := by
  refine ⟨_, fun r c => (((defaultAnswer.getD r []).getD c 0 : Nat) : Int), rfl, ?_, completion_iff.2 ⟨?_, ?_⟩⟩
  · intro r c row v h1 h2 h3
    have hr := (List.getElem?_eq_some_iff.1 h1).1
    have hc := (List.getElem?_eq_some_iff.1 h2).1
    rw [default_nine.cols row (List.mem_of_getElem? h1)] at hc
    rw [default_nine.rows] at hr
    have key : ∀ r < 9, ∀ c < 9, (defaultSchema.getD r []).getD c none = some 0 ∨
        (defaultSchema.getD r []).getD c none = some (((defaultAnswer.getD r []).getD c 0 : Nat) : Int) := by decide +kernel
    have e : (defaultSchema.getD r []).getD c none = some v := by simp [List.getD, h1, h2]
    rcases key r hr c hc with h | h <;> rw [e] at h
    · exact absurd (Option.some.inj h) h3
    · exact (Option.some.inj h).symm
  · have key : ∀ r < 9, ∀ c < 9, 1 ≤ (defaultAnswer.getD r []).getD c 0 ∧ (defaultAnswer.getD r []).getD c 0 ≤ 9 := by decide +kernel
    intro r hr c hc
    have := key r hr c hc
    omega
  · have key : ∀ r ∈ List.range 9, ∀ c ∈ List.range 9, ∀ r' ∈ List.range 9, ∀ c' ∈ List.range 9,
        (decide (r = r') || decide (c = c') || (decide (r / 3 = r' / 3) && decide (c / 3 = c' / 3))) = true →
        (defaultAnswer.getD r []).getD c 0 = (defaultAnswer.getD r' []).getD c' 0 → (decide (r = r') && decide (c = c')) = true := by decide +kernel
    intro r hr c hc r' hr' c' hc' hp he
    have := key r (List.mem_range.2 hr) c (List.mem_range.2 hc) r' (List.mem_range.2 hr') c' (List.mem_range.2 hc') (by simpa [Peers, or_assoc] using hp)
      (by exact_mod_cast he)
    simpa using this

theorem said_schema : "No input file - using default " ++ "schema" ++ ":" = "No input file - using default schema:" := by decide

theorem said_data : "No input file - using default " ++ "data" ++ ":" = "No input file - using default data:" := by decide

theorem glue_board (a : List Char) (d board lines : List (List Char)) :
    unlines (a :: d ++ [[]]) ++ "=== sudoku schema ===\n".toList ++ unlines board ++ [] ++ unlines lines =
      unlines (a :: d ++ [[], "=== sudoku schema ===".toList] ++ board ++ lines) := by
  have e : "=== sudoku schema ===\n".toList = "=== sudoku schema ===".toList ++ ['\n'] := by decide
  rw [e]
  generalize "=== sudoku schema ===".toList = t
  simp [unlines]

theorem glue_lines (a : String) (d : List String) (b : List String) :
    unlines (a.toList :: d.map String.toList ++ [[]]) ++ [] ++ unlines (b.map String.toList) = unlines ((a :: d ++ "" :: b).map String.toList) := by
  simp [unlines]

/-- `satisfy sudoku` without a file: the default schema is shown, as text and as a picture, and a completion of it. -/
theorem C74_sudoku_default (m : Machine) (hs : ∀ l, (m.shuffle l).Perm l) (ho : ∀ l, (m.order l).Perm l)
    (hj : ReadsJson m) :
    ∃ board, GridPicture (fun r c => (schemaAt defaultSchema (r, c)).getD none) board ∧
      ∃ N, ∀ n ≥ N, ∃ lines, program m ["sudoku".toList] n =
          .text (unlines ("No input file - using default schema:".toList :: defaultSudoku.map String.toList ++ [[], "=== sudoku schema ===".toList] ++ board ++ lines)) ∧
        ∃ B ls secs, Completion defaultSchema B ∧ GridPicture (fun r c => (schemaAt B (r, c)).getD none) ls ∧
          lines = "\n=== solution 1 ===".toList :: ls ++ [("\nFound 1 partial solution in " ++ m.fmt secs ++ " seconds [limit reached]").toList] := by
  obtain ⟨B, hB⟩ := default_completion
  obtain ⟨w, vars, board, front, _, h2, h3, N, h4⟩ := C74_sudoku m hs ho (no_options m .sudoku) (input := .none) (.inr ⟨by simp, rfl⟩) (.default (hj _ _ default_sudoku))
    default_nine (conflict_free default_nine hB) ⟨_, List.mem_cons_self, .inr (by decide)⟩
  refine ⟨board, h2, N, fun n hn => ?_⟩
  obtain ⟨lines, h5, L, body, last, secs, rfl, r2, _, r4, r5⟩ := h4 n hn
  have h3 : front = [] := by simpa [ModelShown] using h3
  subst h3
  refine ⟨body ++ [String.toList last], ?_, ?_⟩
  · rw [h5, said_schema]
    exact congrArg Output.text (glue_board _ _ _ _)
  · have r6 : L.length = 1 ∧ last = "\nFound 1 partial solution in " ++ m.fmt secs ++ " seconds [limit reached]" := by
      rcases r5 with ⟨a1, a2, a3⟩ | ⟨s, a1, ⟨a2, l, a3, a4⟩ | ⟨_, ⟨t, a3⟩, _⟩⟩
      · have := a1 B hB
        rcases a2 with rfl | a2
        · cases this
        · have := a2 1 rfl
          have : L.length = 0 := by omega
          rw [List.length_eq_zero_iff] at this
          subst this
          cases a1 B hB
      · cases a3
        have e : L.length = 1 := a4
        refine ⟨e, ?_⟩
        rcases a1 with ⟨rfl, _⟩ | ⟨_, h⟩
        · rw [a2, e]; rfl
        · exact absurd e h
      · cases a3
    obtain ⟨e, rfl⟩ := r6
    obtain ⟨B', rfl⟩ := List.length_eq_one_iff.1 e
    cases r2 with
    | cons hd tl =>
      cases tl
      exact ⟨B', _, secs, r4 _ (by simp), hd, by rw [List.append_nil]; rfl⟩

/-- The items of the default knapsack. -/
def defaultValues : List Int := [10, 12, 20, 23, 15, 14, 16]

/-- Its capacities. -/
def defaultCaps : List Int := [8, 6]

/-- Its weights. -/
def defaultWeights : List (List Int) := [[1, 1], [2, 1], [5, 3], [4, 4], [2, 2], [2, 2], [2, 3]]

/-- The fields of its document. -/
def defaultItems : List (List Char × Json) :=
  [("capacities".toList, ofList ofInt defaultCaps), ("values".toList, ofList ofInt defaultValues), ("weights".toList, ofList (ofList ofInt) defaultWeights)]

theorem default_knapsack : JsonText (fileText defaultKnapsack) (.obj defaultItems) := jsonText_of (by decide +kernel)

/-- The best selection of the default knapsack. -/
theorem default_best {y : List Int} (h : Selection defaultValues defaultCaps defaultWeights y) (hv : 51 ≤ dot y defaultValues) : y = [1, 1, 0, 0, 1, 1, 0] := by
  obtain ⟨h1, h2, h3⟩ := h
  have f0 := h3 0 8 rfl
  have f1 := h3 1 6 rfl
  match y, h1 with
  | [a, b, c, d, e, f, g], _ =>
    have key : ∀ a ∈ [0, 1], ∀ b ∈ [0, 1], ∀ c ∈ [0, 1], ∀ d ∈ [0, 1], ∀ e ∈ [0, 1], ∀ f ∈ [0, 1], ∀ g ∈ [(0 : Int), 1],
        dot [a, b, c, d, e, f, g] (column defaultWeights 0) ≤ 8 → dot [a, b, c, d, e, f, g] (column defaultWeights 1) ≤ 6 →
        51 ≤ dot [a, b, c, d, e, f, g] defaultValues → [a, b, c, d, e, f, g] = [1, 1, 0, 0, 1, 1, 0] := by decide +kernel
    have bit : ∀ x ∈ [a, b, c, d, e, f, g], x ∈ [(0 : Int), 1] := fun x hx => by simpa using h2 x hx
    exact key a (bit a (by simp)) b (bit b (by simp)) c (bit c (by simp)) d (bit d (by simp)) e (bit e (by simp)) f (bit f (by simp)) g (bit g (by simp)) f0 f1 hv

/-- `satisfy knapsack`: everything printed but the number of seconds and the number of iterations. -/
theorem C74_knapsack_default (m : Machine) (hs : ∀ l, (m.shuffle l).Perm l) (hj : ReadsJson m) :
    ∃ N, ∀ n ≥ N, ∃ secs k, 0 < k ∧ program m ["knapsack".toList] n =
      .text (unlines (("No input file - using default data:" :: defaultKnapsack ++ ["",
        "=== optimal_solution ===", "is_optimal: True", "solution: 'X X _ _ X X _'", "value: 51", "weights: (7, 6)",
        "\nFound optimal solution in " ++ m.fmt secs ++ " seconds after " ++ toString k ++ " solve iteration" ++ (if k = 1 then "" else "s")]).map String.toList)) := by
  obtain ⟨w, k, front, _, h2, N, h3⟩ := C74_knapsack m hs (no_options m .knapsack) (input := .none) (.inr ⟨by simp, rfl⟩) (.default (hj _ _ default_knapsack))
    (values := defaultValues) (caps := defaultCaps) (rows := defaultWeights) rfl rfl rfl (List.cons_ne_nil _ _) ⟨rfl, by decide⟩
  refine ⟨N, fun n hn => ?_⟩
  obtain ⟨lines, x, optimal, count, why, h4, ⟨g1, ⟨middle, secs, rfl, g2⟩, g3, g4⟩, h6, h7, h8, h9⟩ := h3 n hn
  have hfront : front = [] := by simpa [ModelShown] using h2
  subst hfront
  have hwhy : why = none := by
    cases why with
    | none => rfl
    | some i =>
      cases i with
      | timeout => obtain ⟨t, ht⟩ := h8 rfl; cases ht
      | limit => obtain ⟨t, ht, _⟩ := h7 rfl; cases ht
  subst hwhy
  have hsel : Selection defaultValues defaultCaps defaultWeights [1, 1, 0, 0, 1, 1, 0] := by
    refine ⟨rfl, by decide, fun j c hj => ?_⟩
    have : j < 2 := (List.getElem?_eq_some_iff.1 hj).1
    interval_cases j <;> cases hj <;> decide
  have hx : x ≠ none := fun hx => h6 hx rfl ⟨_, hsel⟩
  have ho : optimal = true := g3.2 ⟨hx, rfl⟩
  subst ho
  obtain ⟨y, rfl, hy⟩ := h9 (by decide) (by decide) rfl
  have := default_best (g1 y rfl) (hy _ hsel)
  subst this
  obtain ⟨marks, ⟨m1, m2⟩, rfl⟩ := g2
  have hm : marks = "X X _ _ X X _".toList := by
    apply List.ext_getElem?
    intro i
    by_cases hi : i < 13
    · have a0 := m2 0 1 rfl
      have a1 := m2 1 1 rfl
      have a2 := m2 2 0 rfl
      have a3 := m2 3 0 rfl
      have a4 := m2 4 1 rfl
      have a5 := m2 5 1 rfl
      have a6 := m2 6 0 rfl
      simp only [List.length_cons, List.length_nil, Nat.reduceAdd, Nat.reduceMul, Nat.reduceLT, true_implies] at a0 a1 a2 a3 a4 a5 a6
      interval_cases i
      · exact a0.1
      · exact a0.2
      · exact a1.1
      · exact a1.2
      · exact a2.1
      · exact a2.2
      · exact a3.1
      · exact a3.2
      · exact a4.1
      · exact a4.2
      · exact a5.1
      · exact a5.2
      · exact a6.1
    · have e1 : marks.length = 13 := m1
      rw [List.getElem?_eq_none (by omega), List.getElem?_eq_none (by simpa using hi)]
  subst hm
  refine ⟨secs, count, Nat.pos_of_ne_zero (fun h => hx (g4.1 h)), ?_⟩
  have e : (["=== optimal_solution ===".toList, ("is_optimal: " ++ if true = true then "True" else "False").toList] ++
      ["solution: '".toList ++ "X X _ _ X X _".toList ++ ['\''], ("value: " ++ toString (dot [1, 1, 0, 0, 1, 1, 0] defaultValues)).toList,
        ("weights: " ++ tupleString ((List.range defaultCaps.length).map (fun j => dot [1, 1, 0, 0, 1, 1, 0] (column defaultWeights j)))).toList]) =
      ["=== optimal_solution ===", "is_optimal: True", "solution: 'X X _ _ X X _'", "value: 51", "weights: (7, 6)"].map String.toList := by decide
  rw [h4, said_data, e]
  refine congrArg Output.text ?_
  rw [← glue_lines]
  refine congrArg (fun t => unlines ("No input file - using default data:".toList :: defaultKnapsack.map String.toList ++ [[]]) ++ [] ++ unlines t) ?_
  have e2 : "\nFound " ++ "optimal" ++ " solution in " = "\nFound optimal solution in " := by decide
  rw [if_pos rfl, e2]
  generalize "\nFound optimal solution in " ++ m.fmt secs ++ " seconds after " ++ toString count ++ " solve iteration" = t
  simp only [List.map_cons, List.map_nil, List.cons_append, List.nil_append, String.append_empty]

/-! ## Concrete cases -/

/-- A machine on which every text is read as the document `j`. -/
def reader (j : Json) : Machine := { exMachine with json := fun _ => some j }

/-- A machine that reads documents. -/
def jsonMachine : Machine := { exMachine with json := readJson }

theorem jsonMachine_reads : ReadsJson jsonMachine := fun _ _ h => readJson_iff.2 h

/-- `satisfy sudoku` -/
example := C74_sudoku_default jsonMachine (fun _ => .refl _) (fun _ => .refl _) jsonMachine_reads

/-- `satisfy sudoku -i in.json -l -s` -/
example :=
  have hf : Means exOutside (.file "in.json".toList) (.file "in.json".toList) := .file (by decide)
  C74_sudoku (reader (ofList (ofList ofEntry) (grid9 none none))) (fun _ => .refl _) (fun _ => .refl _)
    (ps := [.file "in.json".toList, .limit none, .showModel]) (limit := .infinity) (timeout := .none) (shown := true)
    ⟨.short (p := .file "in.json".toList) (.short (p := .limit none) (.short (p := .showModel) .nil)), by simp [Piece.Belongs], by simp [Piece.texts, PlainArg],
      by
        intro p hp
        simp only [List.mem_cons, List.not_mem_nil, or_false] at hp
        rcases hp with rfl | rfl | rfl
        · exact ⟨_, hf⟩
        · exact ⟨_, .limitBare⟩
        · exact ⟨_, .showModel⟩,
      .inl ⟨[_], _, [_], rfl, rfl, .limitBare, by decide⟩, .inr ⟨by decide, rfl⟩, .inl ⟨[_, _], _, [], rfl, rfl, .showModel, by decide⟩⟩
    (.inl ⟨[], _, _, rfl, rfl, hf, by decide⟩) (.file rfl) grid9_good.1 grid9_good.2.1 grid9_good.2.2.1

/-- `satisfy nonogram` with a document for the default: an L -/
example := C74_nonogram (reader (.obj [("rows".toList, ofList (ofList ofInt) [[1], [2]]), ("columns".toList, ofList (ofList ofInt) [[2], [1]])])) (fun _ => .refl _)
  (no_options _ .nonogram) (.inr ⟨by simp, rfl⟩) (by simp) (.default rfl) (rows := [[1], [2]]) (cols := [[2], [1]]) rfl rfl rfl
  (by unfold PosClues; decide) (by unfold PosClues; decide) ⟨[1], by simp, by simp⟩

/-- `satisfy nonogram -I in.json` with a file of three lines -/
example :=
  have hf : Means exOutside (.image "in.json".toList) (.file "in.json".toList) := .image (by decide)
  C74_nonogram_image { exMachine with content := fun _ => "X _\n XX\nX".toList } (fun _ => .refl _)
    (ps := [.image "in.json".toList]) (limit := .none) (timeout := .none) (shown := false)
    ⟨.short (p := .image "in.json".toList) .nil, by simp [Piece.Belongs], by simp [Piece.texts, PlainArg],
      by intro p hp; simp only [List.mem_singleton] at hp; subst hp; exact ⟨_, hf⟩,
      .inr ⟨by decide, rfl⟩, .inr ⟨by decide, rfl⟩, .inr ⟨by decide, rfl⟩⟩
    (.inl ⟨[], _, _, rfl, rfl, hf, by decide⟩) (by simp) (lines := ["X _".toList, " XX".toList, "X".toList]) (by simp) (by decide) (by decide)
    ⟨"X _".toList, by simp, 'X', by decide, by decide, by decide⟩

/-- `satisfy graph_labeling -L a b` on a path of three nodes -/
example := C74_graph { reader .null with graph := fun _ => some (["x".toList, "y".toList, "z".toList], [("x".toList, "y".toList), ("y".toList, "z".toList)]) } (fun _ => .refl _)
  (ps := [.labels "a".toList ["b".toList]]) (limit := .none) (timeout := .none) (shown := false)
  ⟨.short (p := .labels "a".toList ["b".toList]) .nil, by simp [Piece.Belongs], by simp [Piece.texts, PlainArg],
    by intro p hp; simp only [List.mem_singleton] at hp; subst hp; exact ⟨_, .labels⟩,
    .inr ⟨by decide, rfl⟩, .inr ⟨by decide, rfl⟩, .inr ⟨by decide, rfl⟩⟩
  (.inr ⟨by decide, rfl⟩) (.inl ⟨[], _, _, rfl, rfl, .labels, by decide⟩) (.default rfl) rfl (by decide) (by decide) (by decide) (by decide)

/-- `satisfy ascii_map_coloring -i in.json` -/
example : program exMachine ["ascii_map_coloring".toList, "-i".toList, "in.json".toList] 5 = .raised .typeError :=
  have hf : Means exOutside (.file "in.json".toList) (.file "in.json".toList) := .file (by decide)
  C74_map_file exMachine (ps := [.file "in.json".toList]) (limit := .none) (timeout := .none) (shown := false)
    ⟨.short (p := .file "in.json".toList) .nil, by simp [Piece.Belongs], by simp [Piece.texts, PlainArg],
      by intro p hp; simp only [List.mem_singleton] at hp; subst hp; exact ⟨_, hf⟩,
      .inr ⟨by decide, rfl⟩, .inr ⟨by decide, rfl⟩, .inr ⟨by decide, rfl⟩⟩
    (.inl ⟨[], _, _, rfl, rfl, hf, by decide⟩) 5

/-- `satisfy ascii_map_coloring` -/
example := C74_map exMachine (fun _ => .refl _) (fun _ => .refl _) (no_options _ .asciiMapColoring) (by simp) (.inr ⟨by simp, rfl⟩) (by decide)

/-- `satisfy knapsack` -/
example := C74_knapsack_default jsonMachine (fun _ => .refl _) jsonMachine_reads

end Satisfy.Props
