import Verif.Props.Program
import Verif.Props.Report
import Verif.Props.Image
/-!
# The programs that may read a file: C74
-/

namespace Satisfy.Props
open Satisfy

/-- Specification: the arguments `l` consist of the options `ps` of the command, with all that they need, and ask for the limit, the timeout and the listing. -/
structure Options (m : Machine) (c : Command) (ps : List Piece) (l : List (List Char)) (limit timeout : ArgVal) (shown : Bool) : Prop where
  written : Written ps l
  belongs : ∀ p ∈ ps, p.Belongs c
  plain : ∀ p ∈ ps, ∀ t ∈ p.texts, PlainArg t
  means : ∀ p ∈ ps, ∃ v, Means m.outside p v
  limit : Asked m.outside ps .limit limit
  timeout : Asked m.outside ps .timeout timeout
  shown : Asked m.outside ps .showModel (.bool shown)

theorem Options.call {m : Machine} {c : Command} {ps : List Piece} {l : List (List Char)} {limit timeout : ArgVal} {shown : Bool}
    (h : Options m c ps l limit timeout shown) (hx : ¬ ((∃ t, .file t ∈ ps) ∧ ∃ t, .image t ∈ ps)) :
    ∃ kw, mainCall m.outside (c.word :: l) = .call c kw ∧ ∀ d ∈ c.parameters, ∀ v, Asked m.outside ps d v → kwarg kw d = v := by
  obtain ⟨kw, hcall, hkeys, hkw⟩ := C73_call (c := c) h.written h.belongs h.plain h.means hx
  exact ⟨kw, hcall, fun d hd v hv => asked_unique (hkw d _ (kwarg_mem (by rw [hkeys]; exact hd))) hv⟩

theorem Options.no_image {m : Machine} {c : Command} {ps : List Piece} {l : List (List Char)} {limit timeout : ArgVal} {shown : Bool}
    (h : Options m c ps l limit timeout shown) (hc : c ≠ .nonogram) : ¬ ((∃ t, .file t ∈ ps) ∧ ∃ t, .image t ∈ ps) := by
  rintro ⟨_, t, ht⟩
  exact hc (h.belongs _ ht)

/-- The text with these lines. -/
def fileText (lines : List String) : List Char := pyJoin '\n' (lines.map String.toList)

/-- Specification: the document the program works on and what it prints about it: the content of the file given, or the default text, which is shown. -/
inductive Loaded (m : Machine) (what : String) (default : List String) : ArgVal → List Char → Json → Prop
  | file {f : List Char} {j : Json} : m.json (m.content f) = some j → Loaded m what default (.file f) [] j
  | default {j : Json} : m.json (fileText default) = some j →
      Loaded m what default .none (unlines (("No input file - using default " ++ what ++ ":").toList :: default.map String.toList ++ [[]])) j

theorem unlines_join : ∀ (ls : List (List Char)), ls ≠ [] → unlines ls = joinChars ['\n'] ls ++ ['\n']
  | [l], _ => by simp [unlines, joinChars]
  | l :: l' :: ls, _ => by
    have := unlines_join (l' :: ls) (by simp)
    have e : joinChars ['\n'] (l :: l' :: ls) = l ++ ['\n'] ++ joinChars ['\n'] (l' :: ls) := rfl
    rw [e, List.append_assoc, ← this]
    simp [unlines]

theorem unlines_append (a b : List (List Char)) : unlines (a ++ b) = unlines a ++ unlines b := by simp [unlines]

theorem greeting_text (what : String) {source : List String} (hne : source ≠ []) :
    unlines (("No input file - using default " ++ what ++ ":").toList :: source.map String.toList ++ [[]]) = noInput what.toList (textOf source) := by
  rw [String.toList_append, String.toList_append, List.cons_append, ← List.singleton_append, unlines_append, unlines_append,
    unlines_join (source.map String.toList) (by simpa using hne)]
  unfold noInput textOf unlines
  simp only [List.flatMap_cons, List.flatMap_nil, List.append_nil, List.append_assoc, List.nil_append]
  rfl

theorem fileText_eq (lines : List String) : fileText lines = textOf lines := by
  unfold fileText textOf
  rw [joinChars_pyJoin]

theorem Loaded.load {m : Machine} {what : String} {default : List String} (hne : default ≠ []) {input : ArgVal} {greeting : List Char} {j : Json}
    (h : Loaded m what default input greeting j) : m.load what.toList (textOf default) input = (greeting, some j) := by
  cases h with
  | file h => simp only [Machine.load, h]
  | default h => rw [fileText_eq] at h; simp only [Machine.load, h, greeting_text what hne]

theorem defaults_ne : defaultSudoku ≠ [] ∧ defaultGraph ≠ [] ∧ defaultKnapsack ≠ [] ∧ defaultNonogram ≠ [] ∧ defaultMap ≠ [] :=
  ⟨List.cons_ne_nil _ _, List.cons_ne_nil _ _, List.cons_ne_nil _ _, List.cons_ne_nil _ _, List.cons_ne_nil _ _⟩

theorem Json.each_map {α β : Type} {f : Json → Option α} {g : β → Json} {h : β → α} (e : ∀ x, f (g x) = some (h x)) (l : List β) :
    Json.each f (l.map g) = some (l.map h) := by
  induction l with
  | nil => rfl
  | cons x l ih => simp [Json.each, e, ih]

theorem Json.list_map {α : Type} {f : Json → Option α} {g : α → Json} (e : ∀ x, f (g x) = some x) (l : List α) :
    Json.list f (.arr (l.map g)) = some l := by
  have := Json.each_map (h := id) e l
  simpa [Json.list] using this

/-- A document for a number. -/
def ofInt (i : Int) : Json := .num i

/-- A document for an entry of a sudoku. -/
def ofEntry : Option Int → Json
  | none => .null
  | some i => .num i

/-- A document for a list. -/
def ofList {α : Type} (f : α → Json) (l : List α) : Json := .arr (l.map f)

/-- The limit, 1 if there is none. -/
def orOne' (limit : ArgVal) : ArgVal := match limit with
  | .none => .int 1
  | v => v

theorem orOne_eq (v : ArgVal) : orOne v = orOne' v := by cases v <;> rfl

/-! ## Sudoku -/

/-- `satisfy sudoku`: without a file the default schema as text; the schema as a picture; with `-s` the listing of the model; then the report about all completions, one if there
is no limit on the command line. -/
theorem C74_sudoku (m : Machine) (hs : ∀ l, (m.shuffle l).Perm l) (ho : ∀ l, (m.order l).Perm l) {ps : List Piece} {l : List (List Char)}
    {limit timeout : ArgVal} {shown : Bool} (h : Options m .sudoku ps l limit timeout shown) {input : ArgVal} (hi : Asked m.outside ps .inputFile input)
    {greeting : List Char} {schema : List (List (Option Int))} (hl : Loaded m "schema" defaultSudoku input greeting (ofList (ofList ofEntry) schema))
    (h9 : Schema9 schema) (hno : NoConflict schema) (hbl : HasBlank schema) :
    ∃ w vars board front, sudokuBuild m.order schema ⟨.empty, m.heap⟩ = (w, .ok vars) ∧
      GridPicture (fun r c => (schemaAt schema (r, c)).getD none) board ∧ ModelShown (fun o => ∃ d, o = .set d) shown w.model front ∧
      ∃ N, ∀ n ≥ N, ∃ lines, program m ("sudoku".toList :: l) n =
          .text (greeting ++ "=== sudoku schema ===\n".toList ++ unlines board ++ front ++ unlines lines) ∧
        Report m.fmt (Completion schema) (fun B ls => GridPicture (fun r c => (schemaAt B (r, c)).getD none) ls) (orOne' limit) timeout lines := by
  obtain ⟨kw, hcall, arg⟩ := h.call (h.no_image (by simp))
  have e1 := arg .inputFile (by decide) _ hi
  have e2 := arg .limit (by decide) _ h.limit
  have e3 := arg .timeout (by decide) _ h.timeout
  have e4 := arg .showModel (by decide) _ h.shown
  obtain ⟨w, vars, h1, h2⟩ := C35_partial m.heap (m.solveArgs .groups timeout (orOne' limit)) hs rfl m.order ho schema h9 hno hbl
  obtain ⟨w', h1', hbuilt⟩ := sudoku_built m.heap ho h9.shape
  rw [h1] at h1'; cases h1'
  obtain ⟨board, hb1, hb2⟩ := C55_sudoku h9
  obtain ⟨N, hN⟩ := report m hs .groups timeout (orOne' limit) (by rw [hbuilt.keys]; exact hbuilt.nodup) h2 sudokuBoard
    (fun B hB => (C55_sudoku (completion_schema hB).1).imp fun _ h => h.1)
  refine ⟨w, _, board, _, h1, hb2, model_shown hbuilt (obj := .set) (fun p _ => ⟨rfl, _, rfl⟩) shown, N, fun n hn => ?_⟩
  obtain ⟨lines, h3, h4⟩ := hN n hn
  refine ⟨lines, ?_, h4.mono (fun B hB ls hls => ?_)⟩
  · unfold program
    rw [show mainCall m.outside ("sudoku".toList :: l) = .call .sudoku kw from hcall]
    have hj : Json.list (Json.list Json.entry) (ofList (ofList ofEntry) schema) = some schema :=
      Json.list_map (Json.list_map (fun x => by cases x <;> rfl)) schema
    simp only [e1, e2, e3, e4, sudokuDemo, hl.load defaults_ne.1, hj, hb1, h1, orOne_eq, h3, printed, unlines]
  · obtain ⟨ls', e, hg⟩ := C55_sudoku (completion_schema hB).1
    rw [hls] at e; cases e; exact hg

/-! ## Nonograms -/

/-- The lines of a picture. -/
def Drawing (P : List (List Int)) (ls : List (List Char)) : Prop :=
  ls = [pyJoin '\n' (P.map (fun row => row.map (fun v => if v = 0 then ' ' else '#')))]

theorem nonoPrint_drawing {rows cols P : List (List Int)} (hP : Picture rows cols P) : ∃ ls, nonoPrint P = .ok ls ∧ Drawing P ls := by
  refine ⟨_, ?_, rfl⟩
  unfold nonoPrint
  rw [pixmapToImage_eq]
  show Except.ok _ = Except.ok _
  congr 3
  apply List.map_congr_left
  intro row hrow
  rw [maxLength_rect hP.width (List.ne_nil_of_mem hrow), hP.width row hrow, Nat.sub_self, List.replicate_zero, List.append_nil]

/-- The demo, once the clues are known. -/
theorem nono_demo (m : Machine) (hs : ∀ l, (m.shuffle l).Perm l) {rows cols : List (List Int)} (hr : PosClues rows) (hc : PosClues cols)
    (hne : ∃ L ∈ rows ++ cols, L ≠ []) (limit timeout : ArgVal) (shown : Bool) {file image : ArgVal} {greeting : List Char}
    (hcl : m.clues file image = (greeting, some (.ok (rows, cols)))) :
    ∃ w vs front, nonoBuild rows cols ⟨.empty, m.heap⟩ = (w, .ok vs) ∧ ModelShown (fun o => ∃ d, o = .list d) shown w.model front ∧
      ∃ N, ∀ n ≥ N, ∃ lines, nonogramDemo m file image timeout limit (.bool shown) n = .text (greeting ++ front ++ unlines lines) ∧
        Report m.fmt (Picture rows cols) Drawing limit timeout lines := by
  obtain ⟨w, vs, h1, h2⟩ := C38_partial m.heap hr hc hne
  have h2 := h2 (m.solveArgs .minBound timeout limit) hs rfl
  obtain ⟨w', h1', hbuilt⟩ := nono_built m.heap rows cols
  rw [h1] at h1'; cases h1'
  obtain ⟨N, hN⟩ := report m hs .minBound timeout limit (by rw [hbuilt.keys]; exact hbuilt.nodup) h2 nonoPrint
    (fun P hP => (nonoPrint_drawing hP).imp fun _ h => h.1)
  refine ⟨w, _, _, h1, model_shown hbuilt (obj := .list) (fun p _ => ⟨rfl, _, rfl⟩) shown, N, fun n hn => ?_⟩
  obtain ⟨lines, h3, h4⟩ := hN n hn
  refine ⟨lines, ?_, h4.mono (fun P hP ls hls => ?_)⟩
  · simp only [nonogramDemo, hcl, h1, h3, printed, unlines]
  · obtain ⟨ls', e, hg⟩ := nonoPrint_drawing hP
    rw [hls] at e; cases e; exact hg

/-- `satisfy nonogram`, with a file of clues or with the default: with `-s` the listing of the model; then the report about all pictures with these clues. -/
theorem C74_nonogram (m : Machine) (hs : ∀ l, (m.shuffle l).Perm l) {ps : List Piece} {l : List (List Char)}
    {limit timeout : ArgVal} {shown : Bool} (h : Options m .nonogram ps l limit timeout shown) {input : ArgVal} (hi : Asked m.outside ps .inputFile input)
    (hno : ∀ t, .image t ∉ ps) {greeting : List Char} {j : Json} (hl : Loaded m "nonogram" defaultNonogram input greeting j)
    {rows cols : List (List Int)} {fields : List (List Char × Json)} (hj : j = .obj fields)
    (hfr : aget fields "rows".toList = some (ofList (ofList ofInt) rows)) (hfc : aget fields "columns".toList = some (ofList (ofList ofInt) cols))
    (hr : PosClues rows) (hc : PosClues cols) (hne : ∃ L ∈ rows ++ cols, L ≠ []) :
    ∃ w vs front, nonoBuild rows cols ⟨.empty, m.heap⟩ = (w, .ok vs) ∧ ModelShown (fun o => ∃ d, o = .list d) shown w.model front ∧
      ∃ N, ∀ n ≥ N, ∃ lines, program m ("nonogram".toList :: l) n = .text (greeting ++ front ++ unlines lines) ∧
        Report m.fmt (Picture rows cols) Drawing limit timeout lines := by
  obtain ⟨kw, hcall, arg⟩ := h.call (fun ⟨_, t, ht⟩ => hno t ht)
  have e1 := arg .inputFile (by decide) _ hi
  have e0 := arg .inputImage (by decide) .none (.inr ⟨(fun p hp e => by
    cases p
    case image t => exact hno t hp
    all_goals cases e), rfl⟩)
  have e2 := arg .limit (by decide) _ h.limit
  have e3 := arg .timeout (by decide) _ h.timeout
  have e4 := arg .showModel (by decide) _ h.shown
  have hjj : j.clues = some (.ok (rows, cols)) := by
    have h1 : ∀ x : List (List Int), Json.list (Json.list Json.int) (ofList (ofList ofInt) x) = some x :=
      fun x => Json.list_map (g := ofList ofInt) (Json.list_map (g := ofInt) (fun _ => rfl)) x
    subst hj
    simp only [Json.clues, Json.field, hfr, hfc, h1]
  have hcl : m.clues input .none = (greeting, some (.ok (rows, cols))) := by
    cases hl with
    | file hf => simp only [Machine.clues, hf, readClues, hjj]
    | default hf =>
      rw [fileText_eq] at hf
      simp only [Machine.clues, hf, readClues, hjj, greeting_text "nonogram" defaults_ne.2.2.2.1]
  obtain ⟨w, vs, front, h1, h2, N, hN⟩ := nono_demo m hs hr hc hne limit timeout shown hcl
  refine ⟨w, vs, front, h1, h2, N, fun n hn => ?_⟩
  obtain ⟨lines, h3, h4⟩ := hN n hn
  refine ⟨lines, ?_, h4⟩
  unfold program
  rw [show mainCall m.outside ("nonogram".toList :: l) = .call .nonogram kw from hcall]
  simp only [e0, e1, e2, e3, e4, h3]

/-- Specification: the pixels of a drawing with these lines: as wide as the longest line; blanks and underscores are white. -/
structure PixelsOf (lines : List (List Char)) (p : List (List Int)) (width : Nat) : Prop where
  height : p.length = lines.length
  wide : ∀ line ∈ lines, line.length ≤ width
  longest : ∃ line ∈ lines, line.length = width
  rows : ∀ row ∈ p, row.length = width
  pixel : ∀ (r c : Nat) line row v, lines[r]? = some line → p[r]? = some row → row[c]? = some v →
    v = 0 ∧ (line[c]? = none ∨ line[c]? = some ' ' ∨ line[c]? = some '_') ∨ v = 1 ∧ ∃ x, line[c]? = some x ∧ x ≠ ' ' ∧ x ≠ '_'

theorem maxLength_mem {α : Type} {ls : List (List α)} (hne : ls ≠ []) : ∃ l ∈ ls, l.length = maxLength ls := by
  have key : ∀ (ls : List (List α)) (k : Nat), (∃ l ∈ ls, l.length = ls.foldl (fun m l => max m l.length) k) ∨ ls.foldl (fun m l => max m l.length) k = k := by
    intro ls
    induction ls with
    | nil => intro k; exact .inr rfl
    | cons x ls ih =>
      intro k
      rw [List.foldl_cons]
      rcases ih (max k x.length) with ⟨l, hl, e⟩ | e
      · exact .inl ⟨l, by simp [hl], e⟩
      · rw [e]
        rcases Nat.le_total k x.length with h | h
        · exact .inl ⟨x, by simp, by omega⟩
        · exact .inr (by omega)
  rcases key ls 0 with h | h
  · exact h
  · obtain ⟨l, ls, rfl⟩ := List.exists_cons_of_ne_nil hne
    have h0 : maxLength (l :: ls) = 0 := h
    have := maxLength_le (l :: ls) l (by simp)
    exact ⟨l, by simp, by omega⟩

/-- `satisfy nonogram -I F`: the clues are the runs of black pixels of the drawing; with `-s` the listing of the model; then the report about all pictures with these clues. -/
theorem C74_nonogram_image (m : Machine) (hs : ∀ l, (m.shuffle l).Perm l) {ps : List Piece} {l : List (List Char)}
    {limit timeout : ArgVal} {shown : Bool} (h : Options m .nonogram ps l limit timeout shown) {f : List Char} (hi : Asked m.outside ps .inputImage (.file f))
    (hno : ∀ t, .file t ∉ ps) {lines : List (List Char)} (hne : lines ≠ []) (hnl : ∀ line ∈ lines, '\n' ∉ line) (hf : m.content f = pyJoin '\n' lines)
    (hblack : ∃ line ∈ lines, ∃ x ∈ line, x ≠ ' ' ∧ x ≠ '_') :
    ∃ p width, PixelsOf lines p width ∧
      ∃ w vs front, nonoBuild (p.map runs) ((List.range width).map (fun c => runs (pixCol p c))) ⟨.empty, m.heap⟩ = (w, .ok vs) ∧
        ModelShown (fun o => ∃ d, o = .list d) shown w.model front ∧
        ∃ N, ∀ n ≥ N, ∃ lines, program m ("nonogram".toList :: l) n = .text (front ++ unlines lines) ∧
          Report m.fmt (Picture (p.map runs) ((List.range width).map (fun c => runs (pixCol p c)))) Drawing limit timeout lines := by
  obtain ⟨kw, hcall, arg⟩ := h.call (fun ⟨⟨t, ht⟩, _⟩ => hno t ht)
  have e0 := arg .inputImage (by decide) _ hi
  have e1 := arg .inputFile (by decide) .none (.inr ⟨(fun p hp e => by
    cases p
    case file t => exact hno t hp
    all_goals cases e), rfl⟩)
  have e2 := arg .limit (by decide) _ h.limit
  have e3 := arg .timeout (by decide) _ h.timeout
  have e4 := arg .showModel (by decide) _ h.shown
  have hsplit : pySplit '\n' (m.content f) = lines := by rw [hf]; exact pySplit_join _ _ hne hnl
  obtain ⟨p, hp, hp'⟩ := C44_nonogram (m.content f) [' ', '_']
  rw [imageToPixmap_eq, hsplit] at hp
  cases hp
  rw [hsplit] at hp'
  let row : List Char → List Int := fun line =>
    line.map (fun c => if c ∈ [' ', '_'] then 0 else 1) ++ List.replicate (maxLength lines - line.length) 0
  have hrl : ∀ line ∈ lines, (row line).length = maxLength lines := by
    intro line hl
    have := maxLength_le lines line hl
    simp [row]; omega
  have hpix : PixelsOf lines (lines.map row) (maxLength lines) := by
    refine ⟨by simp, maxLength_le lines, maxLength_mem hne, ?_, ?_⟩
    · intro r hr
      obtain ⟨line, hl, rfl⟩ := List.mem_map.1 hr
      exact hrl line hl
    · intro r c line row' v h1 h2 h3
      rw [List.getElem?_map, h1] at h2
      cases h2
      rcases Nat.lt_or_ge c line.length with hc | hc
      · rw [List.getElem?_append_left (by simpa using hc), List.getElem?_map, List.getElem?_eq_getElem hc] at h3
        simp only [Option.map_some, Option.some.injEq] at h3
        rw [List.getElem?_eq_getElem hc]
        by_cases hb : line[c] ∈ [' ', '_']
        · rw [if_pos hb] at h3
          left
          simp only [List.mem_cons, List.not_mem_nil, or_false] at hb
          rcases hb with hb | hb
          · exact ⟨h3.symm, .inr (.inl (by rw [hb]))⟩
          · exact ⟨h3.symm, .inr (.inr (by rw [hb]))⟩
        · rw [if_neg hb] at h3
          right
          simp only [List.mem_cons, List.not_mem_nil, or_false, not_or] at hb
          exact ⟨h3.symm, _, rfl, hb.1, hb.2⟩
      · left
        rw [List.getElem?_append_right (by simpa using hc)] at h3
        exact ⟨List.eq_of_mem_replicate (List.mem_of_getElem? h3), .inl (List.getElem?_eq_none hc)⟩
  have hcl : m.clues .none (.file f) = ([], some (.ok ((lines.map row).map runs, (List.range (maxLength lines)).map (fun c => runs (pixCol (lines.map row) c))))) := by
    exact congrArg (fun x => (([] : List Char), some x)) hp'
  have hposn : ∀ (ls : List (List Int)), PosClues (ls.map runs) := by
    intro ls L hL
    obtain ⟨l, _, rfl⟩ := List.mem_map.1 hL
    exact runs_pos l
  have hsome : ∃ L ∈ (lines.map row).map runs ++ (List.range (maxLength lines)).map (fun c => runs (pixCol (lines.map row) c)), L ≠ [] := by
    obtain ⟨line, hl, x, hx, h1, h2⟩ := hblack
    refine ⟨runs (row line), List.mem_append_left _ (List.mem_map_of_mem (List.mem_map_of_mem hl)), ?_⟩
    refine runs_ne_nil (v := 1) (List.mem_append_left _ (List.mem_map.2 ⟨x, hx, if_neg ?_⟩)) (by decide)
    simp only [List.mem_cons, List.not_mem_nil, or_false, not_or]
    exact ⟨h1, h2⟩
  obtain ⟨w, vs, front, h1, h2, N, hN⟩ := nono_demo m hs (hposn _) (by
    rw [show (List.range (maxLength lines)).map (fun c => runs (pixCol (lines.map row) c)) =
      ((List.range (maxLength lines)).map (fun c => pixCol (lines.map row) c)).map runs from by rw [List.map_map]; rfl]
    exact hposn _) hsome limit timeout shown hcl
  refine ⟨_, _, hpix, w, vs, front, h1, h2, N, fun n hn => ?_⟩
  obtain ⟨out, h3, h4⟩ := hN n hn
  refine ⟨out, ?_, h4⟩
  unfold program
  rw [show mainCall m.outside ("nonogram".toList :: l) = .call .nonogram kw from hcall]
  simp only [e0, e1, e2, e3, e4, h3, List.nil_append]

/-! ## Graphs -/

/-- `satisfy graph_labeling`: without a file the default data as text; with `-s` the listing of the model; then the report about all proper labelings. -/
theorem C74_graph (m : Machine) (hs : ∀ l, (m.shuffle l).Perm l) {ps : List Piece} {l : List (List Char)}
    {limit timeout : ArgVal} {shown : Bool} (h : Options m .graphLabeling ps l limit timeout shown) {input : ArgVal} (hi : Asked m.outside ps .inputFile input)
    {labels : List (List Char)} (hla : Asked m.outside ps .labels (.texts labels))
    {greeting : List Char} {j : Json} (hl : Loaded m "data" defaultGraph input greeting j)
    {nodes : List (List Char)} {edges : List (List Char × List Char)} (hg : m.graph j = some (nodes, edges)) (hn : nodes.Nodup) (hne : nodes ≠ [])
    (he : ∀ e ∈ edges, e.1 ∈ nodes ∧ e.2 ∈ nodes) (hd : labels.Nodup) :
    ∃ w d front, graphBuild nodes edges labels ⟨.empty, m.heap⟩ = (w, .ok d) ∧ ModelShown (fun o => ∃ d, o = .tuple d) shown w.model front ∧
      ∃ N, ∀ n ≥ N, ∃ lines, program m ("graph_labeling".toList :: l) n = .text (greeting ++ front ++ unlines lines) ∧
        Report m.fmt (Labeling nodes edges labels) (fun L ls => ∃ text, ls = [text] ∧ DictPicture m.repr m.repr L text) limit timeout lines := by
  obtain ⟨kw, hcall, arg⟩ := h.call (h.no_image (by simp))
  have e0 := arg .labels (by decide) _ hla
  have e1 := arg .inputFile (by decide) _ hi
  have e2 := arg .limit (by decide) _ h.limit
  have e3 := arg .timeout (by decide) _ h.timeout
  have e4 := arg .showModel (by decide) _ h.shown
  obtain ⟨w, d, h1, h2⟩ := C37_partial m.heap (m.solveArgs .ordered timeout limit) hs rfl nodes edges labels hn hne he hd
  obtain ⟨w', h1', hbuilt⟩ := graph_built m.heap (labels := labels) hn he
  rw [h1] at h1'; cases h1'
  obtain ⟨N, hN⟩ := report m hs .ordered timeout limit (by rw [hbuilt.keys]; exact hbuilt.nodup) h2 (fun L => .ok [dictText m.repr m.repr L])
    (fun L _ => ⟨_, rfl⟩)
  refine ⟨w, _, _, h1, model_shown hbuilt (obj := .tuple) (fun p _ => ⟨rfl, _, rfl⟩) shown, N, fun n hn => ?_⟩
  obtain ⟨lines, h3, h4⟩ := hN n hn
  refine ⟨lines, ?_, h4.mono (fun L hL ls hls => ?_)⟩
  · unfold program
    rw [show mainCall m.outside ("graph_labeling".toList :: l) = .call .graphLabeling kw from hcall]
    simp only [e0, e1, e2, e3, e4, graphDemo, hl.load defaults_ne.2.1, hg, h1, h3, printed, unlines]
  · cases hls
    exact ⟨_, rfl, dictText_picture _ _ L⟩

/-! ## Maps -/

theorem map_word : Command.asciiMapColoring.word = "ascii_map_coloring".toList := by unfold Command.word; rfl

/-- `satisfy ascii_map_coloring` with a file: it has already been opened, and `open` raises. -/
theorem C74_map_file (m : Machine) {ps : List Piece} {l : List (List Char)} {limit timeout : ArgVal} {shown : Bool}
    (h : Options m .asciiMapColoring ps l limit timeout shown) {f : List Char} (hi : Asked m.outside ps .inputFile (.file f)) (n : Nat) :
    program m ("ascii_map_coloring".toList :: l) n = .raised .typeError := by
  obtain ⟨kw, hcall, arg⟩ := h.call (h.no_image (by simp))
  have e1 := arg .inputFile (by decide) _ hi
  rw [map_word] at hcall
  unfold program
  rw [hcall]
  show mapDemo m (kwarg kw .inputFile) (kwarg kw .colors) (kwarg kw .timeout) (kwarg kw .limit) (kwarg kw .showModel) n = _
  rw [e1]
  rfl

theorem map_built {β : Type} (h : Heap) {ord : List Pos → List Pos} (ho : ∀ l, (ord l).Perm l) {map : List (List Char)} (hne : map ≠ []) {colors : List β}
    {w : World} {x : Option (List (List Pos) × List (Nat × Expr))} (hw : mapBuild ord map colors ⟨.empty, h⟩ = (w, .ok x)) :
    ∃ vs C, Built h.params w vs C := by
  obtain ⟨groups, h1, hg⟩ := mapRegions_ok ho hne
  have hedges : ∀ e ∈ mapEdges 0 groups, e.1 ∈ List.range groups.length ∧ e.2 ∈ List.range groups.length := by
    intro e he
    obtain ⟨i, j, G, G', hi, hj, _, rfl, _⟩ := (mem_mapEdges _ _ _).1 he
    have := (List.getElem?_eq_some_iff.1 hi).1
    have := (List.getElem?_eq_some_iff.1 hj).1
    simp only [List.mem_range, Nat.zero_add]
    omega
  obtain ⟨w', hw', hb⟩ := graph_built h (labels := colors) List.nodup_range hedges
  unfold mapBuild at hw
  simp only [Api.bind_apply, Api.lift, h1, hw'] at hw
  cases hw
  exact ⟨_, _, hb⟩

/-- The map demo, once its arguments are known. -/
theorem map_demo (m : Machine) (hs : ∀ l, (m.shuffle l).Perm l) (ho : ∀ l, (m.positions l).Perm l) {source : List String} (hne : source ≠ [])
    (hnl : ∀ line ∈ source.map String.toList, '\n' ∉ line) (hreg : ∃ p x, cell (source.map String.toList) p = some x ∧ ¬ Blank x)
    {colors : List (List Char)} (hd : colors.Nodup) (limit timeout : ArgVal) (shown : Bool) :
    ∃ map, map = source.map String.toList ∧ ∃ w groups d num front, mapBuild m.positions map colors ⟨.empty, m.heap⟩ = (w, .ok (some (groups, d))) ∧
      Numbering map num ∧ ModelShown (fun o => ∃ d, o = .tuple d) shown w.model front ∧
      ∃ N, ∀ n ≥ N, ∃ lines, mapDemoOn m source colors timeout limit (.bool shown) n =
          .text (unlines ("No input file - using default data:".toList :: map ++ [[]]) ++ front ++ unlines lines) ∧
        Report m.fmt (Painted map num colors) (fun M ls => ∃ text, ls = [text] ∧ MapPicture m.colored M text) (orOne' limit) timeout lines := by
  have hne' : source.map String.toList ≠ [] := by simpa using hne
  have hsplit : pySplit '\n' (textOf source) = source.map String.toList := by
    rw [← fileText_eq]
    exact pySplit_join _ _ hne' hnl
  obtain ⟨w, groups, d, num, h1, h2, h3, _⟩ :=
    C42_colorings m.heap (m.solveArgs .ordered timeout (orOne' limit)) hs rfl m.positions ho (source.map String.toList) hne' colors hd
  obtain ⟨vs, C, hbuilt⟩ := map_built m.heap ho hne' h1
  obtain ⟨N, hN⟩ := report m hs .ordered timeout (orOne' limit) (by rw [hbuilt.keys]; exact hbuilt.nodup) (h3 hreg) (fun M => .ok [mapText m.colored M])
    (fun L _ => ⟨_, rfl⟩)
  refine ⟨_, rfl, w, groups, d, num, _, h1, h2, model_shown hbuilt (obj := .tuple) (fun p _ => ⟨rfl, _, rfl⟩) shown, N, fun n hn => ?_⟩
  obtain ⟨lines, h4, h5⟩ := hN n hn
  refine ⟨lines, ?_, h5.mono (fun M hM ls hls => ?_)⟩
  · have hg := greeting_text "data" hne
    rw [show "No input file - using default " ++ "data" ++ ":" = "No input file - using default data:" by decide] at hg
    simp only [mapDemoOn, hsplit, h1, h4, orOne_eq, printed, hg]
    rfl
  · cases hls
    exact ⟨_, rfl, mapText_picture _ M⟩

/-- `satisfy ascii_map_coloring` without a file: the default map as text; with `-s` the listing of the model; then the report about all colourings, one if there is no limit on the
command line. -/
theorem C74_map (m : Machine) (hs : ∀ l, (m.shuffle l).Perm l) (ho : ∀ l, (m.positions l).Perm l) {ps : List Piece} {l : List (List Char)}
    {limit timeout : ArgVal} {shown : Bool} (h : Options m .asciiMapColoring ps l limit timeout shown) (hno : ∀ t, .file t ∉ ps)
    {colors : List (List Char)} (hco : Asked m.outside ps .colors (.texts colors)) (hd : colors.Nodup) :
    ∃ map, map = defaultMap.map String.toList ∧ ∃ w groups d num front, mapBuild m.positions map colors ⟨.empty, m.heap⟩ = (w, .ok (some (groups, d))) ∧ Numbering map num ∧
      ModelShown (fun o => ∃ d, o = .tuple d) shown w.model front ∧
      ∃ N, ∀ n ≥ N, ∃ lines, program m ("ascii_map_coloring".toList :: l) n =
          .text (unlines ("No input file - using default data:".toList :: map ++ [[]]) ++ front ++ unlines lines) ∧
        Report m.fmt (Painted map num colors) (fun M ls => ∃ text, ls = [text] ∧ MapPicture m.colored M text) (orOne' limit) timeout lines := by
  obtain ⟨kw, hcall, arg⟩ := h.call (h.no_image (by simp))
  have e0 := arg .colors (by decide) _ hco
  have e1 := arg .inputFile (by decide) .none (.inr ⟨(fun p hp e => by
    cases p
    case file t => exact hno t hp
    all_goals cases e), rfl⟩)
  have e2 := arg .limit (by decide) _ h.limit
  have e3 := arg .timeout (by decide) _ h.timeout
  have e4 := arg .showModel (by decide) _ h.shown
  obtain ⟨map, hmap, w, groups, d, num, front, h1, h2, h3, N, hN⟩ := map_demo m hs ho defaults_ne.2.2.2.2 (by decide +kernel)
    ⟨(0, 11), '0', by decide +kernel, by unfold Blank; decide⟩ hd limit timeout shown
  refine ⟨map, hmap, w, groups, d, num, front, h1, h2, h3, N, fun n hn => ?_⟩
  obtain ⟨lines, h4, h5⟩ := hN n hn
  refine ⟨lines, ?_, h5⟩
  rw [map_word] at hcall
  unfold program
  rw [hcall]
  show mapDemo m (kwarg kw .inputFile) (kwarg kw .colors) (kwarg kw .timeout) (kwarg kw .limit) (kwarg kw .showModel) n = _
  rw [e0, e1, e2, e3, e4]
  exact h4

/-! ## Knapsack -/

/-- `satisfy knapsack`: without a file the default data as text; with `-s` the listing of the model; then the report about the selection found. -/
theorem C74_knapsack (m : Machine) (hs : ∀ l, (m.shuffle l).Perm l) {ps : List Piece} {l : List (List Char)}
    {limit timeout : ArgVal} {shown : Bool} (h : Options m .knapsack ps l limit timeout shown) {input : ArgVal} (hi : Asked m.outside ps .inputFile input)
    {greeting : List Char} {fields : List (List Char × Json)} (hl : Loaded m "data" defaultKnapsack input greeting (.obj fields))
    {values caps : List Int} {rows : List (List Int)} (hv : aget fields "values".toList = some (ofList ofInt values))
    (hc : aget fields "capacities".toList = some (ofList ofInt caps)) (hr : aget fields "weights".toList = some (ofList (ofList ofInt) rows))
    (hne : values ≠ []) (hwf : WellFormed values caps rows) :
    ∃ w k front, knapBuild (values.map some) (caps.map some) (seqOf rows) ⟨.empty, m.heap⟩ = (w, .ok (some k)) ∧
      ModelShown (fun o => o = .tuple [0, 1]) shown w.model front ∧
      ∃ N, ∀ n ≥ N, ∃ lines x optimal count why, program m ("knapsack".toList :: l) n = .text (greeting ++ front ++ unlines lines) ∧
        KnapReport m.fmt values caps rows x optimal count why lines ∧
        (x = none → why = none → ¬ ∃ y, Selection values caps rows y) ∧
        (why = some .limit → ∃ l, limit = .int l ∧ count = max 1 l.toNat) ∧ (why = some .timeout → ∃ t, timeout = .float t) ∧
        ((∀ v ∈ values, 0 ≤ v) → (values.filter (· ≠ 0)).length ≠ 1 → optimal = true →
          ∃ y, x = some y ∧ ∀ z, Selection values caps rows z → dot z values ≤ dot y values) := by
  obtain ⟨kw, hcall, arg⟩ := h.call (h.no_image (by simp))
  have e1 := arg .inputFile (by decide) _ hi
  have e2 := arg .limit (by decide) _ h.limit
  have e3 := arg .timeout (by decide) _ h.timeout
  have e4 := arg .showModel (by decide) _ h.shown
  obtain ⟨w, k, h1, h2⟩ := C61_partial m.heap hne hwf
  obtain ⟨w', h1', hbuilt⟩ := knap_built m.heap hne hwf.1 hwf.2 (seqOf rows) rfl
  have hww : w = w' := by
    have := h1.symm.trans h1'
    exact congrArg Prod.fst this
  subst hww
  obtain ⟨N, hN⟩ := h2 (m.solveArgs .groups timeout limit) hs rfl m.fmt
  refine ⟨w, k, _, h1, model_shown hbuilt (obj := .tuple) (fun p hp => ?_) shown, N, fun n hn => ?_⟩
  · obtain ⟨i, _, rfl⟩ := List.mem_map.1 hp
    exact ⟨rfl, rfl⟩
  obtain ⟨x, optimal, count, why, lines, h3, h4, h5, h6, h7, h8⟩ := hN n hn
  refine ⟨lines, x, optimal, count, why, ?_, h4, h5, fun e => ?_, fun e => ?_, h8⟩
  · unfold program
    rw [show mainCall m.outside ("knapsack".toList :: l) = .call .knapsack kw from hcall]
    have hint : ∀ l : List Int, Json.list Json.maybeInt (ofList ofInt l) = some (l.map some) := fun l => Json.each_map (f := Json.maybeInt) (g := ofInt) (h := some) (fun _ => rfl) l
    have hjj : Json.items (.obj fields) = some (.ok (values.map some, caps.map some, rows.map (List.map some))) := by
      have : Json.list (Json.list Json.maybeInt) (ofList (ofList ofInt) rows) = some (rows.map (List.map some)) := Json.each_map (f := Json.list Json.maybeInt) (g := ofList ofInt) (h := List.map some) hint rows
      simp only [Json.items, Json.field, hv, hc, hr, hint, this]
    have h1' : knapBuild (values.map some) (caps.map some) (.seq (rows.map (List.map some))) ⟨.empty, m.heap⟩ = (w, .ok (some k)) := h1
    simp only [e1, e2, e3, e4, knapsackProgram, hl.load defaults_ne.2.2.1, hjj, h1', h3, Option.getD_some, printed, unlines]
  · obtain ⟨l, h9, h10⟩ := h6 e
    exact ⟨l, limit_asked.1 h9, h10⟩
  · obtain ⟨t, h9⟩ := h7 e
    exact timeout_asked (m := m) (by
      have h9 : (m.timeoutSetting timeout).stored = some t := h9
      rw [h9]; rfl)

end Satisfy.Props
