import Verif.Props.Defaults
/-!
# The programs on trivial and on wrong input: C76
-/

namespace Satisfy.Props
open Satisfy

/-! ## Nothing to be found -/

/-- The last line when no solution has been shown and the search was not cut: the clock has never been started. -/
def noneFound (fmt : Int → String) : List Char := ("\nFound all 0 solutions in " ++ fmt 0 ++ " seconds").toList

/-- A model without variables: the search is over before it has begun. -/
theorem run_no_vars {ρ : Store} {w : World} {vs : Dict (List Int)} {C : Subst → Prop} {a : SolveArgs} (hb : Built ρ w vs C) (hvs : vs = [])
    (hs : ∀ l, (a.shuffle l).Perm l) (ha : a.adds = []) (n : Nat) :
    (solveRun a w.model passive n w.heap).1 = [] ∧ (solveRun a w.model passive n w.heap).2.1 = Gen.idle .finished := by
  cases startCase (a := a) w.model w.heap hs with
  | idle h1 _ => rw [solveRun_idle (ph := .finished) trivial h1]; exact ⟨rfl, rfl⟩
  | fail e h1 _ _ =>
    obtain ⟨N, hN⟩ := hb.ends hs ha
    have := (hN N (Nat.le_refl _)).2.1
    rw [solveRun_idle (ph := .raised e) trivial h1] at this
    simp [Gen.idle] at this
  | go H info _ _ _ hne hp =>
    rw [hb.pureKeys, hvs] at hp
    exact absurd hp.eq_nil hne

theorem demo_no_vars {β : Type} {ρ : Store} {w : World} {vs : Dict (List Int)} {C : Subst → Prop} {a : SolveArgs} (hb : Built ρ w vs C) (hvs : vs = [])
    (hs : ∀ l, (a.shuffle l).Perm l) (ha : a.adds = []) (fmt : Int → String) (pr : β → Res (List (List Char))) (dec : Subst → Res β) (n : Nat) :
    demoRun fmt pr (puzzleRun a w dec) n = .ok [noneFound fmt] := by
  obtain ⟨h1, h2⟩ := run_no_vars hb hvs hs ha n
  have e1 : (puzzleRun a w dec n).1 = .ok [] := by unfold puzzleRun; rw [h1]; rfl
  have e2 : (puzzleRun a w dec n).2 = Gen.idle .finished := h2
  unfold demoRun
  rw [e1, e2]
  rfl

theorem tabVars_nil {α : Type} {nm : α → Name} {dom : α → List Int} {is : List α} (h : is = []) : tabVars is nm dom = [] := by
  subst h; rfl

/-- `satisfy queens -b N` with N ≤ 0: "all 0 solutions". -/
theorem C76_queens (m : Machine) (hs : ∀ l, (m.shuffle l).Perm l) {ps : List Piece} {l : List (List Char)} {limit timeout : ArgVal} {shown : Bool}
    (h : Options m .queens ps l limit timeout shown) {size : Int} (hsize : Asked m.outside ps .boardSize (.int size)) (h0 : size ≤ 0) :
    ∃ w front, queensBuild 0 ⟨.empty, m.heap⟩ = (w, .ok []) ∧ ModelShown (fun _ => False) shown w.model front ∧
      ∀ n, program m ("queens".toList :: l) n = .text (front ++ unlines [noneFound m.fmt]) := by
  obtain ⟨kw, hcall, arg⟩ := h.call (h.no_image (by simp))
  have e1 := arg .boardSize (by decide) _ hsize
  have e2 := arg .limit (by decide) _ h.limit
  have e3 := arg .timeout (by decide) _ h.timeout
  have e4 := arg .showModel (by decide) _ h.shown
  have e0 : size.toNat = 0 := by omega
  obtain ⟨w, h1, hb⟩ := queens_built m.heap 0
  have hvs : tabVars (qQueens 0 ++ qRows 0 (List.range 0)) qname (qdom 0) = [] := rfl
  have h1 : queensBuild 0 ⟨.empty, m.heap⟩ = (w, .ok []) := h1
  refine ⟨w, _, h1, model_shown hb (obj := rangeObject) (by rw [hvs]; simp) shown, fun n => ?_⟩
  have h2 := demo_no_vars (a := m.solveArgs .groups timeout limit) hb hvs hs rfl m.fmt (fun B => .ok (queensPicture 0 B)) (queensDecode 0 []) n
  unfold program
  rw [show mainCall m.outside ("queens".toList :: l) = .call .queens kw from hcall]
  simp only [e1, e2, e3, e4, queensDemo, e0, h1, h2, printed, unlines]

/-- `satisfy sudoku` with a grid without blanks, right or wrong: it is shown, then "all 0 solutions". -/
theorem C76_sudoku (m : Machine) (hs : ∀ l, (m.shuffle l).Perm l) (ho : ∀ l, (m.order l).Perm l) {ps : List Piece} {l : List (List Char)}
    {limit timeout : ArgVal} {shown : Bool} (h : Options m .sudoku ps l limit timeout shown) {input : ArgVal} (hi : Asked m.outside ps .inputFile input)
    {greeting : List Char} {schema : List (List (Option Int))} (hl : Loaded m "schema" defaultSudoku input greeting (ofList (ofList ofEntry) schema))
    (h9 : Schema9 schema) (hbl : ¬ HasBlank schema) :
    ∃ w board front, sudokuBuild m.order schema ⟨.empty, m.heap⟩ = (w, .ok []) ∧
      GridPicture (fun r c => (schemaAt schema (r, c)).getD none) board ∧ ModelShown (fun _ => False) shown w.model front ∧
      ∀ n, program m ("sudoku".toList :: l) n =
        .text (greeting ++ "=== sudoku schema ===\n".toList ++ unlines board ++ front ++ unlines [noneFound m.fmt]) := by
  obtain ⟨kw, hcall, arg⟩ := h.call (h.no_image (by simp))
  have e1 := arg .inputFile (by decide) _ hi
  have e2 := arg .limit (by decide) _ h.limit
  have e3 := arg .timeout (by decide) _ h.timeout
  have e4 := arg .showModel (by decide) _ h.shown
  obtain ⟨w, h1, hb⟩ := sudoku_built m.heap ho h9.shape
  obtain ⟨board, hb1, hb2⟩ := C55_sudoku h9
  have hnil : blanks schema sudokuCells = [] := by
    rw [List.eq_nil_iff_forall_not_mem]
    intro k hk
    obtain ⟨_, h1⟩ := mem_blanks.1 hk
    refine hbl ?_
    rcases h1 with h1 | h1 <;> obtain ⟨row, g1, g2⟩ := schemaAt_iff.1 h1
    · exact ⟨row, List.mem_of_getElem? g1, .inl (List.mem_of_getElem? g2)⟩
    · exact ⟨row, List.mem_of_getElem? g1, .inr (List.mem_of_getElem? g2)⟩
  have hvs := tabVars_nil (nm := sname) (dom := sudokuDomain m.order schema) hnil
  rw [hnil] at h1
  have h1 : sudokuBuild m.order schema ⟨.empty, m.heap⟩ = (w, .ok []) := h1
  refine ⟨w, board, _, h1, hb2, model_shown hb (obj := .set) (by rw [hvs]; simp) shown, fun n => ?_⟩
  have h2 := demo_no_vars (a := m.solveArgs .groups timeout (orOne limit)) hb hvs hs rfl m.fmt sudokuBoard (sudokuDecode schema []) n
  unfold program
  rw [show mainCall m.outside ("sudoku".toList :: l) = .call .sudoku kw from hcall]
  have hj : Json.list (Json.list Json.entry) (ofList (ofList ofEntry) schema) = some schema :=
    Json.list_map (Json.list_map (fun x => by cases x <;> rfl)) schema
  simp only [e1, e2, e3, e4, sudokuDemo, hl.load defaults_ne.1, hj, hb1, h1, h2, printed, unlines]

/-- The demo, if all clues are empty. -/
theorem nono_demo_blank (m : Machine) (hs : ∀ l, (m.shuffle l).Perm l) {rows cols : List (List Int)} (hr : ∀ L ∈ rows, L = []) (hc : ∀ L ∈ cols, L = [])
    (limit timeout : ArgVal) (shown : Bool) {file image : ArgVal} {greeting : List Char}
    (hcl : m.clues file image = (greeting, some (.ok (rows, cols)))) :
    ∃ w vs front, nonoBuild rows cols ⟨.empty, m.heap⟩ = (w, .ok vs) ∧ ModelShown (fun _ => False) shown w.model front ∧
      ∀ n, nonogramDemo m file image timeout limit (.bool shown) n = .text (greeting ++ front ++ unlines [noneFound m.fmt]) := by
  obtain ⟨w, h1, hb⟩ := nono_built m.heap rows cols
  have hnil : nonoIdx rows cols = [] := by
    rw [List.eq_nil_iff_forall_not_mem]
    rintro ⟨b, i, j⟩ hm
    obtain ⟨h1, h2⟩ := mem_nonoIdx.1 hm
    cases b <;> simp only [clueF, List.getD, Bool.false_eq_true, if_true, if_false] at h1 h2
    · cases hi : cols[i]? with
      | none => simp [hi] at h2
      | some L => rw [hi, Option.getD_some, hc L (List.mem_of_getElem? hi)] at h2; simp at h2
    · cases hi : rows[i]? with
      | none => simp [hi] at h2
      | some L => rw [hi, Option.getD_some, hr L (List.mem_of_getElem? hi)] at h2; simp at h2
  have hvs := tabVars_nil (nm := nname) (dom := ndom (clueF rows cols) (sideN rows cols)) hnil
  refine ⟨w, _, _, h1, model_shown hb (obj := .list) (by rw [hvs]; simp) shown, fun n => ?_⟩
  have h2 := demo_no_vars (a := m.solveArgs .minBound timeout limit) hb hvs hs rfl m.fmt nonoPrint
    (nonoDecode cols.length ((List.range rows.length).map (lineVars (clueF rows cols) (sideN rows cols) true))) n
  simp only [nonogramDemo, hcl, h1, h2, printed, unlines]

/-- `satisfy nonogram` with clues that are all empty: "all 0 solutions". -/
theorem C76_nonogram (m : Machine) (hs : ∀ l, (m.shuffle l).Perm l) {ps : List Piece} {l : List (List Char)}
    {limit timeout : ArgVal} {shown : Bool} (h : Options m .nonogram ps l limit timeout shown) {input : ArgVal} (hi : Asked m.outside ps .inputFile input)
    (hno : ∀ t, .image t ∉ ps) {greeting : List Char} {fields : List (List Char × Json)}
    (hl : Loaded m "nonogram" defaultNonogram input greeting (.obj fields)) {rows cols : List (List Int)}
    (hfr : aget fields "rows".toList = some (ofList (ofList ofInt) rows)) (hfc : aget fields "columns".toList = some (ofList (ofList ofInt) cols))
    (hr : ∀ L ∈ rows, L = []) (hc : ∀ L ∈ cols, L = []) :
    ∃ w vs front, nonoBuild rows cols ⟨.empty, m.heap⟩ = (w, .ok vs) ∧ ModelShown (fun _ => False) shown w.model front ∧
      ∀ n, program m ("nonogram".toList :: l) n = .text (greeting ++ front ++ unlines [noneFound m.fmt]) := by
  obtain ⟨kw, hcall, arg⟩ := h.call (fun ⟨_, t, ht⟩ => hno t ht)
  have e1 := arg .inputFile (by decide) _ hi
  have e0 := arg .inputImage (by decide) .none (.inr ⟨(fun p hp e => by
    cases p
    case image t => exact hno t hp
    all_goals cases e), rfl⟩)
  have e2 := arg .limit (by decide) _ h.limit
  have e3 := arg .timeout (by decide) _ h.timeout
  have e4 := arg .showModel (by decide) _ h.shown
  have hjj : (Json.obj fields).clues = some (.ok (rows, cols)) := by
    have h1 : ∀ x : List (List Int), Json.list (Json.list Json.int) (ofList (ofList ofInt) x) = some x :=
      fun x => Json.list_map (g := ofList ofInt) (Json.list_map (g := ofInt) (fun _ => rfl)) x
    simp only [Json.clues, Json.field, hfr, hfc, h1]
  have hcl : m.clues input .none = (greeting, some (.ok (rows, cols))) := by
    cases hl with
    | file hf => simp only [Machine.clues, hf, readClues, hjj]
    | default hf =>
      rw [fileText_eq] at hf
      simp only [Machine.clues, hf, readClues, hjj, greeting_text "nonogram" defaults_ne.2.2.2.1]
  obtain ⟨w, vs, front, h1, h2, h3⟩ := nono_demo_blank m hs hr hc limit timeout shown hcl
  refine ⟨w, vs, front, h1, h2, fun n => ?_⟩
  unfold program
  rw [show mainCall m.outside ("nonogram".toList :: l) = .call .nonogram kw from hcall]
  simp only [e0, e1, e2, e3, e4, h3]

/-- `satisfy nonogram -I F` with a drawing in which nothing is black: "all 0 solutions". -/
theorem C76_nonogram_image (m : Machine) (hs : ∀ l, (m.shuffle l).Perm l) {ps : List Piece} {l : List (List Char)}
    {limit timeout : ArgVal} {shown : Bool} (h : Options m .nonogram ps l limit timeout shown) {f : List Char} (hi : Asked m.outside ps .inputImage (.file f))
    (hno : ∀ t, .file t ∉ ps) {lines : List (List Char)} (hne : lines ≠ []) (hnl : ∀ line ∈ lines, '\n' ∉ line) (hf : m.content f = pyJoin '\n' lines)
    (hwhite : ∀ line ∈ lines, ∀ x ∈ line, x = ' ' ∨ x = '_') :
    ∃ width w vs front, (∀ line ∈ lines, line.length ≤ width) ∧ (∃ line ∈ lines, line.length = width) ∧
      nonoBuild (List.replicate lines.length []) (List.replicate width []) ⟨.empty, m.heap⟩ = (w, .ok vs) ∧
      ModelShown (fun _ => False) shown w.model front ∧
      ∀ n, program m ("nonogram".toList :: l) n = .text (front ++ unlines [noneFound m.fmt]) := by
  obtain ⟨kw, hcall, arg⟩ := h.call (fun ⟨⟨t, ht⟩, _⟩ => hno t ht)
  have e0 := arg .inputImage (by decide) _ hi
  have e1 := arg .inputFile (by decide) .none (.inr ⟨(fun p hp e => by
    cases p
    case file t => exact hno t hp
    all_goals cases e), rfl⟩)
  have e2 := arg .limit (by decide) _ h.limit
  have e3 := arg .timeout (by decide) _ h.timeout
  have e4 := arg .showModel (by decide) _ h.shown
  have hsplit : pySplit '\n' (m.content f) = lines := by rw [hf]; exact pySplit_join _ _ hne hnl
  obtain ⟨p, hp, hp'⟩ := C44_nonogram (m.content f) [' ', '_']
  rw [imageToPixmap_eq, hsplit] at hp
  cases hp
  rw [hsplit] at hp'
  let row : List Char → List Int := fun line =>
    line.map (fun c => if c ∈ [' ', '_'] then 0 else 1) ++ List.replicate (maxLength lines - line.length) 0
  have h0 : ∀ r ∈ lines.map row, ∀ v ∈ r, v = 0 := by
    intro r hr v hv
    obtain ⟨line, hl, rfl⟩ := List.mem_map.1 hr
    rcases List.mem_append.1 hv with hv | hv
    · obtain ⟨x, hx, rfl⟩ := List.mem_map.1 hv
      rcases hwhite line hl x hx with rfl | rfl <;> rfl
    · exact List.eq_of_mem_replicate hv
  have hrows : (lines.map row).map runs = List.replicate lines.length [] := by
    rw [List.eq_replicate_iff]
    refine ⟨by simp, fun L hL => ?_⟩
    obtain ⟨r, hr, rfl⟩ := List.mem_map.1 hL
    exact runs_blank (h0 r hr)
  have hcols : (List.range (maxLength lines)).map (fun c => runs (pixCol (lines.map row) c)) = List.replicate (maxLength lines) [] := by
    rw [List.eq_replicate_iff]
    refine ⟨by simp, fun L hL => ?_⟩
    obtain ⟨c, hc, rfl⟩ := List.mem_map.1 hL
    refine runs_blank (fun v hv => ?_)
    obtain ⟨r, hr, rfl⟩ := List.mem_map.1 hv
    rcases Nat.lt_or_ge c r.length with hc' | hc'
    · simp [List.getD, hc', h0 r hr _ (List.getElem_mem hc')]
    · simp [List.getD, hc']
  have hcl : m.clues .none (.file f) = ([], some (.ok (List.replicate lines.length [], List.replicate (maxLength lines) []))) := by
    rw [← hrows, ← hcols]
    exact congrArg (fun x => (([] : List Char), some x)) hp'
  obtain ⟨w, vs, front, h1, h2, h3⟩ := nono_demo_blank m hs (fun L hL => List.eq_of_mem_replicate hL) (fun L hL => List.eq_of_mem_replicate hL)
    limit timeout shown hcl
  refine ⟨_, w, vs, front, maxLength_le lines, maxLength_mem hne, h1, h2, fun n => ?_⟩
  unfold program
  rw [show mainCall m.outside ("nonogram".toList :: l) = .call .nonogram kw from hcall]
  simp only [e0, e1, e2, e3, e4, h3, List.nil_append]

/-- `satisfy graph_labeling` with a graph without nodes: "all 0 solutions". -/
theorem C76_graph (m : Machine) (hs : ∀ l, (m.shuffle l).Perm l) {ps : List Piece} {l : List (List Char)}
    {limit timeout : ArgVal} {shown : Bool} (h : Options m .graphLabeling ps l limit timeout shown) {input : ArgVal} (hi : Asked m.outside ps .inputFile input)
    {labels : List (List Char)} (hla : Asked m.outside ps .labels (.texts labels))
    {greeting : List Char} {j : Json} (hl : Loaded m "data" defaultGraph input greeting j) (hg : m.graph j = some ([], [])) :
    ∃ w front, graphBuild ([] : List (List Char)) [] labels ⟨.empty, m.heap⟩ = (w, .ok []) ∧ ModelShown (fun _ => False) shown w.model front ∧
      ∀ n, program m ("graph_labeling".toList :: l) n = .text (greeting ++ front ++ unlines [noneFound m.fmt]) := by
  obtain ⟨kw, hcall, arg⟩ := h.call (h.no_image (by simp))
  have e0 := arg .labels (by decide) _ hla
  have e1 := arg .inputFile (by decide) _ hi
  have e2 := arg .limit (by decide) _ h.limit
  have e3 := arg .timeout (by decide) _ h.timeout
  have e4 := arg .showModel (by decide) _ h.shown
  obtain ⟨w, h1, hb⟩ := graph_built m.heap (nodes := ([] : List (List Char))) (edges := []) (labels := labels) (by simp) (by simp)
  have hvs : gvars 0 ([] : List (List Char)).length labels = [] := rfl
  have h1 : graphBuild ([] : List (List Char)) [] labels ⟨.empty, m.heap⟩ = (w, .ok []) := h1
  refine ⟨w, _, h1, model_shown hb (obj := .tuple) (by rw [hvs]; simp) shown, fun n => ?_⟩
  have h2 := demo_no_vars (a := m.solveArgs .ordered timeout limit) hb hvs hs rfl m.fmt (fun L => .ok [dictText m.repr m.repr L])
    (graphDecode ([] : List (List Char × Expr)) labels) n
  unfold program
  rw [show mainCall m.outside ("graph_labeling".toList :: l) = .call .graphLabeling kw from hcall]
  simp only [e0, e1, e2, e3, e4, graphDemo, hl.load defaults_ne.2.1, hg, h1, h2, printed, unlines]

/-- What is known about the arguments of `satisfy cryptarithm … SOURCE …`. -/
theorem source_call {m : Machine} {pre post : List Piece} {before after : List (List Char)} (hw : Written pre before) (hw' : Written post after)
    (hb : ∀ p ∈ pre ++ post, p.Belongs .cryptarithm) (hp : ∀ p ∈ pre ++ post, ∀ t ∈ p.texts, PlainArg t)
    (hm : ∀ p ∈ pre ++ post, ∃ v, Means m.outside p v) {source : List Char} (hplain : PlainArg source) (hlast : ∀ p, pre.getLast? = some p → ¬ p.Bare) :
    ∃ kw, mainCall m.outside ("cryptarithm".toList :: before ++ source :: after) = .call .cryptarithm kw ∧ kwarg kw .source = .text source ∧
      ∀ d ∈ Command.cryptarithm.parameters, d ≠ .source → ∀ v, Asked m.outside (pre ++ post) d v → kwarg kw d = v := by
  obtain ⟨kw, hcall, hkeys, hsource, hkw⟩ := C73_source (o := m.outside) hw hw' hb hp hm hplain hlast
  refine ⟨kw, hcall, ?_, fun d hd hne v hv => asked_unique (hkw d _ (kwarg_mem (by rw [hkeys]; exact hd)) hne) hv⟩
  have h1 := kwarg_mem (kw := kw) (d := .source) (by rw [hkeys]; decide)
  have hnd : (kw.map Prod.fst).Nodup := by rw [hkeys]; decide
  exact congrArg Prod.snd (List.inj_on_of_nodup_map hnd h1 hsource rfl)

/-- `satisfy cryptarithm SOURCE` with an equation without letters, true or false: "all 0 solutions". -/
theorem C76_cryptarithm (m : Machine) (hs : ∀ l, (m.shuffle l).Perm l) (ho : ∀ l, (m.ord l).Perm l) {pre post : List Piece}
    {before after : List (List Char)} (hw : Written pre before) (hw' : Written post after) (hb : ∀ p ∈ pre ++ post, p.Belongs .cryptarithm)
    (hp : ∀ p ∈ pre ++ post, ∀ t ∈ p.texts, PlainArg t) (hm : ∀ p ∈ pre ++ post, ∃ v, Means m.outside p v) {source : List Char} (hplain : PlainArg source)
    (hlast : ∀ p, pre.getLast? = some p → ¬ p.Bare) {limit timeout : ArgVal} {shown : Bool}
    (hlimit : Asked m.outside (pre ++ post) .limit limit) (htimeout : Asked m.outside (pre ++ post) .timeout timeout)
    (hshown : Asked m.outside (pre ++ post) .showModel (.bool shown)) {l r : CTree} (hsrc : CSource source l r) (hne : ∀ c, ¬ CLetter l r c) :
    ∃ w avoid front, cryptBuild m.ord source avoid ⟨.empty, m.heap⟩ = (w, .ok []) ∧ ModelShown (fun _ => False) shown w.model front ∧
      ∀ n, program m ("cryptarithm".toList :: before ++ source :: after) n = .text (source ++ "\n".toList ++ front ++ unlines [noneFound m.fmt]) := by
  obtain ⟨kw, hcall, e1, arg⟩ := source_call (m := m) hw hw' hb hp hm hplain hlast
  have e2 := arg .limit (by decide) (by decide) _ hlimit
  have e3 := arg .timeout (by decide) (by decide) _ htimeout
  have e4 := arg .showModel (by decide) (by decide) _ hshown
  obtain ⟨w, letters, nz, h1, hnd, h2, h3, hbu⟩ := crypt_built m.heap m.ord ho hsrc
    (fun ⟨⟨m, hm⟩, _⟩ => constant_letter hm (fun w hw c hc => by_contra fun hd => hne c ⟨w, List.mem_append_left _ hw, hc, hd⟩))
    (decide (kwarg kw .avoidLeadingZeros = .bool true))
  have hnil : letters = [] := List.eq_nil_iff_forall_not_mem.2 (fun c hc => hne c ((h2 c).1 hc))
  subst hnil
  have hvs : tabVars [] letterName (letterDom nz) = [] := rfl
  refine ⟨w, _, _, h1, model_shown hbu (obj := .tuple) (by rw [hvs]; simp) shown, fun n => ?_⟩
  have h4 := demo_no_vars (a := m.solveArgs .minBound timeout limit) hbu hvs hs rfl m.fmt (fun τ => cryptPrint τ source) .ok n
  unfold program
  rw [show mainCall m.outside ("cryptarithm".toList :: before ++ source :: after) = .call .cryptarithm kw from hcall]
  simp only [e1, e2, e3, e4, cryptarithmDemo, h1, h4, printed, unlines]
  rfl

/-! ## Wrong input -/

theorem field_none {key : List Char} {l : List (List Char × Json)} (h : key ∉ l.map Prod.fst) : Json.field key l = .error .keyError := by
  have : aget l key = none := by
    induction l with
    | nil => rfl
    | cons p l ih =>
      rw [List.map_cons, List.mem_cons, not_or] at h
      simp only [aget, if_neg (Ne.symm h.1), ih h.2]
  simp only [Json.field, this]

theorem listAt_out {α : Type} {l : List α} {i : Nat} (h : l.length ≤ i) : listAt l (i : Int) = .error .indexError := by
  have hp : pyIndex l.length (i : Int) = none := by
    unfold pyIndex
    rw [if_pos (by omega), if_neg (by omega)]
  simp only [listAt, hp, Option.bind_none]

/-- A file that is not JSON: `JSONDecodeError`, which is a `ValueError`. -/
theorem C76_not_json (m : Machine) {c : Command} (hc : c = .sudoku ∨ c = .nonogram ∨ c = .graphLabeling ∨ c = .knapsack) {ps : List Piece}
    {l : List (List Char)} {limit timeout : ArgVal} {shown : Bool} (h : Options m c ps l limit timeout shown) {f : List Char}
    (hi : Asked m.outside ps .inputFile (.file f)) (hno : ∀ t, .image t ∉ ps) (hf : m.json (m.content f) = none) (n : Nat) :
    program m (c.word :: l) n = .raised .valueError := by
  obtain ⟨kw, hcall, arg⟩ := h.call (fun ⟨_, t, ht⟩ => hno t ht)
  unfold program
  rw [hcall]
  rcases hc with rfl | rfl | rfl | rfl <;> have e1 := arg .inputFile (by decide) _ hi <;> simp only [e1]
  · simp only [sudokuDemo, Machine.load, hf]
  · simp only [nonogramDemo, Machine.clues, hf, readClues]
  · simp only [graphDemo, Machine.load, hf]
  · simp only [knapsackProgram, Machine.load, hf]

/-- Clues without rows or without columns: `KeyError`. -/
theorem C76_nonogram_key (m : Machine) {ps : List Piece} {l : List (List Char)} {limit timeout : ArgVal} {shown : Bool}
    (h : Options m .nonogram ps l limit timeout shown) {f : List Char} (hi : Asked m.outside ps .inputFile (.file f)) (hno : ∀ t, .image t ∉ ps)
    {fields : List (List Char × Json)} (hf : m.json (m.content f) = some (.obj fields))
    (hk : "rows".toList ∉ fields.map Prod.fst ∨ "columns".toList ∉ fields.map Prod.fst) (n : Nat) :
    program m ("nonogram".toList :: l) n = .raised .keyError := by
  obtain ⟨kw, hcall, arg⟩ := h.call (fun ⟨_, t, ht⟩ => hno t ht)
  have e1 := arg .inputFile (by decide) _ hi
  have hj : (Json.obj fields).clues = some (.error .keyError) := by
    rcases hk with hk | hk
    · simp only [Json.clues, field_none hk]
    · simp only [Json.clues, field_none hk]
      cases Json.field "rows".toList fields <;> rfl
  unfold program
  rw [show mainCall m.outside ("nonogram".toList :: l) = .call .nonogram kw from hcall]
  simp only [e1, nonogramDemo, Machine.clues, hf, readClues, hj]

/-- Data without values, capacities or weights: `KeyError`. -/
theorem C76_knapsack_key (m : Machine) {ps : List Piece} {l : List (List Char)} {limit timeout : ArgVal} {shown : Bool}
    (h : Options m .knapsack ps l limit timeout shown) {input : ArgVal} (hi : Asked m.outside ps .inputFile input)
    {greeting : List Char} {fields : List (List Char × Json)} (hl : Loaded m "data" defaultKnapsack input greeting (.obj fields))
    (hk : ∃ k ∈ ["values", "capacities", "weights"], k.toList ∉ fields.map Prod.fst) (n : Nat) :
    program m ("knapsack".toList :: l) n = .raised .keyError := by
  obtain ⟨kw, hcall, arg⟩ := h.call (h.no_image (by simp))
  have e1 := arg .inputFile (by decide) _ hi
  have hj : (Json.obj fields).items = some (.error .keyError) := by
    simp only [List.mem_cons, List.not_mem_nil, or_false] at hk
    obtain ⟨k, rfl | rfl | rfl, hk⟩ := hk
    all_goals simp only [Json.items, field_none hk]
    · cases Json.field "values".toList fields <;> rfl
    · cases Json.field "values".toList fields <;> cases Json.field "capacities".toList fields <;> rfl
  unfold program
  rw [show mainCall m.outside ("knapsack".toList :: l) = .call .knapsack kw from hcall]
  simp only [e1, knapsackProgram, hl.load defaults_ne.2.2.1, hj]

theorem bands_error {schema : List (List (Option Int))} : ∀ (n br : Nat) (hline : List Char),
    (br * 3 + n * 3 ≤ schema.length → ∃ ls, sudokuBands schema n br hline = .ok ls) ∧
    (schema.length < br * 3 + n * 3 → br * 3 ≤ schema.length → sudokuBands schema n br hline = .error .indexError)
  | 0, br, hline => ⟨fun _ => ⟨_, rfl⟩, fun h1 h2 => by omega⟩
  | n + 1, br, hline => by
    obtain ⟨ih1, ih2⟩ := bands_error (schema := schema) n (br + 1) sudokuMline
    have hat : ∀ i : Nat, i < schema.length → ∃ r, listAt schema ((i : Nat) : Int) = .ok r := fun i hi => ⟨_, listAt_nat hi⟩
    have hat' : ∀ i : Nat, schema.length ≤ i → listAt schema ((i : Nat) : Int) = .error .indexError := fun i hi => listAt_out hi
    have e3 : List.range 3 = [0, 1, 2] := rfl
    constructor
    · intro h
      obtain ⟨r0, h0⟩ := hat (br * 3 + 0) (by omega)
      obtain ⟨r1, h1⟩ := hat (br * 3 + 1) (by omega)
      obtain ⟨r2, h2⟩ := hat (br * 3 + 2) (by omega)
      obtain ⟨ls, hls⟩ := ih1 (by omega)
      simp at h0 h1 h2
      simp [sudokuBands, e3, Res.each, h0, h1, h2, hls]
    · intro h hle
      by_cases g0 : schema.length ≤ br * 3 + 0
      · have g := hat' _ g0
        simp at g
        simp [sudokuBands, e3, Res.each, g]
      obtain ⟨r0, h0⟩ := hat (br * 3 + 0) (by omega)
      simp at h0
      by_cases g1 : schema.length ≤ br * 3 + 1
      · have g := hat' _ g1
        simp at g
        simp [sudokuBands, e3, Res.each, h0, g]
      obtain ⟨r1, h1⟩ := hat (br * 3 + 1) (by omega)
      simp at h1
      by_cases g2 : schema.length ≤ br * 3 + 2
      · have g := hat' _ g2
        simp at g
        simp [sudokuBands, e3, Res.each, h0, h1, g]
      obtain ⟨r2, h2⟩ := hat (br * 3 + 2) (by omega)
      simp at h2
      simp [sudokuBands, e3, Res.each, h0, h1, h2, ih2 (by omega) (by omega)]

/-- `satisfy sudoku` with a schema that cannot be used. Too few rows are noticed when the schema is printed. -/
theorem C76_sudoku_wrong (m : Machine) (ho : ∀ l, (m.order l).Perm l) {ps : List Piece} {l : List (List Char)}
    {limit timeout : ArgVal} {shown : Bool} (h : Options m .sudoku ps l limit timeout shown) {input : ArgVal} (hi : Asked m.outside ps .inputFile input)
    {greeting : List Char} {schema : List (List (Option Int))} (hl : Loaded m "schema" defaultSudoku input greeting (ofList (ofList ofEntry) schema)) (n : Nat) :
    (¬ Schema9 schema → ∃ e, program m ("sudoku".toList :: l) n = .raised e) ∧
    (schema.length < 9 → program m ("sudoku".toList :: l) n = .raised .indexError) ∧
    (9 < schema.length → program m ("sudoku".toList :: l) n = .raised .valueError) ∧
    (∀ r c e, schema.length = 9 → Fault schema r c e → (∀ r' c' e', r' < r ∨ (r' = r ∧ c' < c) → ¬ Fault schema r' c' e') →
      program m ("sudoku".toList :: l) n = .raised e) ∧
    (schema.length = 9 → (∀ r c e, ¬ Fault schema r c e) → (∃ row ∈ schema, row.length < 9) →
      program m ("sudoku".toList :: l) n = .raised .attributeError) := by
  obtain ⟨kw, hcall, arg⟩ := h.call (h.no_image (by simp))
  have e1 := arg .inputFile (by decide) _ hi
  have hj : Json.list (Json.list Json.entry) (ofList (ofList ofEntry) schema) = some schema :=
    Json.list_map (Json.list_map (fun x => by cases x <;> rfl)) schema
  have few : schema.length < 9 → program m ("sudoku".toList :: l) n = .raised .indexError := by
    intro hlt
    have hb : sudokuBoard schema = .error .indexError := by
      simp [sudokuBoard, (bands_error 3 0 sudokuUline).2 (by omega) (by omega)]
    unfold program
    rw [show mainCall m.outside ("sudoku".toList :: l) = .call .sudoku kw from hcall]
    simp only [e1, sudokuDemo, hl.load defaults_ne.1, hj, hb]
  have many : ∀ w e, 9 ≤ schema.length → sudokuBuild m.order schema ⟨.empty, m.heap⟩ = (w, .error e) →
      program m ("sudoku".toList :: l) n = .raised e := by
    intro w e hle hw
    obtain ⟨ls, hls⟩ := (bands_error (schema := schema) 3 0 sudokuUline).1 (by omega)
    have hb : sudokuBoard schema = .ok (ls ++ [sudokuBline]) := by simp [sudokuBoard, hls]
    unfold program
    rw [show mainCall m.outside ("sudoku".toList :: l) = .call .sudoku kw from hcall]
    simp only [e1, sudokuDemo, hl.load defaults_ne.1, hj, hb, hw]
  obtain ⟨c1, c2, c3⟩ := C35_errors m.heap m.order ho schema
  refine ⟨fun h9 => ?_, few, fun hgt => many _ _ (by omega) (c1 (by omega)), fun r c e h9 h1 h2 => many _ _ (by omega) (c2 r c e h9 h1 h2), fun h9 h1 h2 => ?_⟩
  · rcases Nat.lt_or_ge schema.length 9 with hlt | hge
    · exact ⟨_, few hlt⟩
    · cases hw : sudokuBuild m.order schema ⟨.empty, m.heap⟩ with
      | mk w r =>
        cases r with
        | error e => exact ⟨e, many w e hge hw⟩
        | ok vars => exact absurd ((C35_rejects m.heap m.order ho schema).1 ⟨w, vars, hw⟩) h9
  · obtain ⟨w, hw⟩ := c3 h9 h1 h2
    exact many w _ (by omega) hw

/-- Specification: a document that is an int for Python: a number, or `true` or `false`. -/
def IntDoc (j : Json) : Prop := (∃ i, j = .num i) ∨ ∃ b, j = .bool b

/-- Specification: row `i` of the weights cannot be used for `n` items and `k` capacities. -/
def RowWrong (n k i : Nat) (row : List Json) (e : Err) : Prop :=
  (e = .valueError ∧ (n ≤ i ∨ row.length ≠ k)) ∨ (e = .typeError ∧ i < n ∧ row.length = k ∧ ∃ j ∈ row, ¬ IntDoc j)

/-- The int in a document. -/
def docInt : Json → Option Int
  | .num i => some i
  | .bool b => some (if b then 1 else 0)
  | _ => none

theorem maybeInt_eq (j : Json) : j.maybeInt = some (docInt j) := by cases j <;> rfl

theorem docInt_none {j : Json} : docInt j = none ↔ ¬ IntDoc j := by cases j <;> simp [docInt, IntDoc]

theorem none_mem_docs {l : List Json} : none ∈ l.map docInt ↔ ∃ j ∈ l, ¬ IntDoc j := by
  rw [List.mem_map]
  exact ⟨fun ⟨j, h1, h2⟩ => ⟨j, h1, docInt_none.1 h2⟩, fun ⟨j, h1, h2⟩ => ⟨j, h1, docInt_none.2 h2⟩⟩

theorem ints_read (l : List Json) : Json.list Json.maybeInt (.arr l) = some (l.map docInt) := by
  have := Json.each_map (f := Json.maybeInt) (g := id) (h := docInt) maybeInt_eq l
  simpa [Json.list] using this

/-- `satisfy knapsack` with data that cannot be used. -/
theorem C76_knapsack_wrong (m : Machine) {ps : List Piece} {l : List (List Char)} {limit timeout : ArgVal} {shown : Bool}
    (h : Options m .knapsack ps l limit timeout shown) {input : ArgVal} (hi : Asked m.outside ps .inputFile input)
    {greeting : List Char} {fields : List (List Char × Json)} (hl : Loaded m "data" defaultKnapsack input greeting (.obj fields))
    {values caps : List Json} {rows : List (List Json)} (hv : aget fields "values".toList = some (.arr values))
    (hc : aget fields "capacities".toList = some (.arr caps)) (hr : aget fields "weights".toList = some (.arr (rows.map .arr))) (n : Nat) :
    (values = [] → program m ("knapsack".toList :: l) n = .raised .attributeError) ∧
    (values ≠ [] → (∃ j ∈ values ++ caps, ¬ IntDoc j) → program m ("knapsack".toList :: l) n = .raised .typeError) ∧
    (values ≠ [] → (∀ j ∈ values ++ caps, IntDoc j) →
      (∀ i row e, rows[i]? = some row → RowWrong values.length caps.length i row e →
        (∀ i' row' e', i' < i → rows[i']? = some row' → ¬ RowWrong values.length caps.length i' row' e') →
        program m ("knapsack".toList :: l) n = .raised e) ∧
      ((∀ i row e, rows[i]? = some row → ¬ RowWrong values.length caps.length i row e) → rows.length < values.length →
        program m ("knapsack".toList :: l) n = .raised .valueError)) := by
  obtain ⟨kw, hcall, arg⟩ := h.call (h.no_image (by simp))
  have e1 := arg .inputFile (by decide) _ hi
  have hj : Json.items (.obj fields) = some (.ok (values.map docInt, caps.map docInt, rows.map (List.map docInt))) := by
    have : Json.list (Json.list Json.maybeInt) (.arr (rows.map .arr)) = some (rows.map (List.map docInt)) :=
      Json.each_map (f := Json.list Json.maybeInt) (g := .arr) (h := List.map docInt) ints_read rows
    simp only [Json.items, Json.field, hv, hc, hr, ints_read, this]
  have raises : ∀ w e, knapBuild (values.map docInt) (caps.map docInt) (.seq (rows.map (List.map docInt))) ⟨.empty, m.heap⟩ = (w, .error e) →
      program m ("knapsack".toList :: l) n = .raised e := by
    intro w e hw
    unfold program
    rw [show mainCall m.outside ("knapsack".toList :: l) = .call .knapsack kw from hcall]
    simp only [e1, knapsackProgram, hl.load defaults_ne.2.2.1, hj, hw]
  have hrow : ∀ i (row : List Json) e, RowFault (values.map docInt).length (caps.map docInt).length i (row.map docInt) e ↔
      RowWrong values.length caps.length i row e := by
    intro i row e
    unfold RowFault RowWrong
    rw [none_mem_docs]
    simp only [List.length_map]
  have hget : ∀ (i : Nat) (row' : List (Option Int)), (rows.map (List.map docInt))[i]? = some row' → ∃ row, rows[i]? = some row ∧ row' = row.map docInt := by
    intro i row' hx
    rw [List.getElem?_map] at hx
    cases hy : rows[i]? with
    | none => rw [hy] at hx; cases hx
    | some row => rw [hy] at hx; cases hx; exact ⟨row, rfl, rfl⟩
  refine ⟨fun hnil => ?_, fun hne hbad => ?_, fun hne hgood => ⟨fun i row e g1 g2 g3 => ?_, fun g1 g2 => ?_⟩⟩
  · subst hnil
    unfold program
    rw [show mainCall m.outside ("knapsack".toList :: l) = .call .knapsack kw from hcall]
    have hk : ∀ c it, knapBuild ([] : List (Option Int)) c it ⟨.empty, m.heap⟩ = (⟨.empty, m.heap⟩, .ok none) := fun c it => rfl
    simp only [e1, knapsackProgram, hl.load defaults_ne.2.2.1, hj, List.map_nil, hk]
    rfl
  all_goals
    have hne' : values.map docInt ≠ [] := by simpa using hne
    obtain ⟨c1, c2⟩ := C34_errors ⟨.empty, m.heap⟩ (values.map docInt) (caps.map docInt) (.seq (rows.map (List.map docInt))) hne'
  · refine raises _ _ (c1 ?_)
    obtain ⟨j, hj, hb⟩ := hbad
    rcases List.mem_append.1 hj with hj | hj
    · exact .inl (none_mem_docs.2 ⟨j, hj, hb⟩)
    · exact .inr (none_mem_docs.2 ⟨j, hj, hb⟩)
  all_goals
    have d1 : none ∉ values.map docInt := fun hx => by
      obtain ⟨j, hj, hb⟩ := none_mem_docs.1 hx
      exact hb (hgood j (by simp [hj]))
    have d2 : none ∉ caps.map docInt := fun hx => by
      obtain ⟨j, hj, hb⟩ := none_mem_docs.1 hx
      exact hb (hgood j (by simp [hj]))
  · refine raises _ _ ((c2 d1 d2).1 i (row.map docInt) e ?_ ((hrow i row e).2 g2) ?_)
    · show (rows.map (List.map docInt))[i]? = _
      rw [List.getElem?_map, g1]; rfl
    · intro i' row' e' hlt hx
      obtain ⟨row1, hx1, rfl⟩ := hget i' row' hx
      exact fun hf => g3 i' row1 e' hlt hx1 ((hrow i' row1 e').1 hf)
  · refine raises _ _ ((c2 d1 d2).2 ?_ ?_)
    · intro i' row' e' hx
      obtain ⟨row1, hx1, rfl⟩ := hget i' row' hx
      exact fun hf => g1 i' row1 e' hx1 ((hrow i' row1 e').1 hf)
    · show (rows.map (List.map docInt)).length < _
      simpa using g2

/-- `satisfy cryptarithm SOURCE` with an equation whose sides have letters but are constants, such as `A*0==B*0`: `TypeError`. -/
theorem C76_cryptarithm_constant (m : Machine) (ho : ∀ l, (m.ord l).Perm l) {pre post : List Piece}
    {before after : List (List Char)} (hw : Written pre before) (hw' : Written post after) (hb : ∀ p ∈ pre ++ post, p.Belongs .cryptarithm)
    (hp : ∀ p ∈ pre ++ post, ∀ t ∈ p.texts, PlainArg t) (hm : ∀ p ∈ pre ++ post, ∃ v, Means m.outside p v) {source : List Char} (hplain : PlainArg source)
    (hlast : ∀ p, pre.getLast? = some p → ¬ p.Bare) {l r : CTree} (hsrc : CSource source l r) (hbc : BothConstant l r) (n : Nat) :
    program m ("cryptarithm".toList :: before ++ source :: after) n = .raised .typeError := by
  obtain ⟨kw, hcall, e1, _⟩ := source_call (m := m) hw hw' hb hp hm hplain hlast
  obtain ⟨w, h1⟩ := C41_type_error m.heap m.ord ho source l r hsrc hbc (decide (kwarg kw .avoidLeadingZeros = .bool true))
  unfold program
  rw [show mainCall m.outside ("cryptarithm".toList :: before ++ source :: after) = .call .cryptarithm kw from hcall]
  simp only [e1, cryptarithmDemo, h1]

/-! ## The claim, and cases -/

/-- The full claim, for `satisfy queens`: what is reported is right for every size of the board. -/
def C76 : Prop := ∀ (m : Machine), (∀ l, (m.shuffle l).Perm l) → ∀ (ps : List Piece) (l : List (List Char)) (size : Int),
  Options m .queens ps l .none .none false → Asked m.outside ps .boardSize (.int size) →
    ∃ N, ∀ n ≥ N, ∃ lines, program m ("queens".toList :: l) n = .text (unlines lines) ∧
      Report m.fmt (QueensBoard size.toNat) (fun B ls => ChessPicture size.toNat (Queen B) ls) .none .none lines

/-- With at least one row the report is right. What is missing of `C76` is the empty board; for the other programs, see `C74_sudoku` with `HasBlank`, `C74_nonogram` with a clue that is
not empty, `C74_graph` with a node and `C74_cryptarithm` with a letter. -/
theorem C76_partial (m : Machine) (hs : ∀ l, (m.shuffle l).Perm l) (ps : List Piece) (l : List (List Char)) (size : Int)
    (h : Options m .queens ps l .none .none false) (hsize : Asked m.outside ps .boardSize (.int size)) (hpos : 0 < size) :
    ∃ N, ∀ n ≥ N, ∃ lines, program m ("queens".toList :: l) n = .text (unlines lines) ∧
      Report m.fmt (QueensBoard size.toNat) (fun B ls => ChessPicture size.toNat (Queen B) ls) .none .none lines := by
  obtain ⟨w, qs, front, -, hf, h1⟩ := C74_queens m hs h.written h.belongs h.plain h.means hsize hpos h.limit h.timeout h.shown
  have hf : front = [] := hf
  subst hf
  exact h1

theorem zero_options : Options exMachine .queens [.size "0".toList] ["-b".toList, "0".toList] .none .none false ∧
    Asked exMachine.outside [.size "0".toList] .boardSize (.int 0) := by
  have h0 : Means exMachine.outside (.size "0".toList) (.int 0) := .size ((pyInt_iff _ _).1 rfl)
  refine ⟨⟨.short (p := .size "0".toList) .nil, by simp [Piece.Belongs], by simp [Piece.texts, PlainArg], ?_,
    .inr ⟨by decide, rfl⟩, .inr ⟨by decide, rfl⟩, .inr ⟨by decide, rfl⟩⟩, .inl ⟨[], _, [], rfl, rfl, h0, by decide⟩⟩
  intro p hp
  simp only [List.mem_singleton] at hp
  subst hp
  exact ⟨_, h0⟩

theorem empty_board : QueensBoard 0 [] :=
  ⟨rfl, by simp, by simp, by simp, by simp, fun r c r' c' h => by simp [Queen] at h⟩

/-- `satisfy queens -b 0`: there is one way to put no queens on an empty board, and "all 0 solutions" are found. -/
theorem C76_refuted : ¬ C76 := by
  intro h
  obtain ⟨N, hN⟩ := h exMachine (fun _ => .refl _) _ _ 0 zero_options.1 zero_options.2
  obtain ⟨lines, h1, L, body, last, secs, h2, h3, -, -, h4⟩ := hN N (Nat.le_refl _)
  obtain ⟨w, front, -, hf, h5⟩ := C76_queens exMachine (fun _ => .refl _) zero_options.1 zero_options.2 (by decide)
  have hf : front = [] := hf
  rw [h5 N, hf, h2] at h1
  have h1 := Output.text.inj h1
  have hL : L = [] := by
    cases h3 with
    | nil => rfl
    | cons hb hr =>
      exfalso
      have e : ∀ a : List Char, unlines [noneFound exMachine.fmt] = ("\n=== solution " ++ toString 1 ++ " ===").toList ++ a → False := by
        intro a he
        have e1 : unlines [noneFound exMachine.fmt] = '\n' :: 'F' :: "ound all 0 solutions in 0 seconds\n".toList := by decide
        have e2 : ("\n=== solution " ++ toString 1 ++ " ===").toList = '\n' :: '=' :: "== solution 1 ===".toList := by decide
        rw [e1, e2, List.cons_append, List.cons_append] at he
        injection he with _ he
        injection he with he _
        exact absurd he (by decide)
      rw [List.nil_append] at h1
      have hu : ∀ (x : List Char) (ls : List (List Char)), unlines (x :: ls) = x ++ (['\n'] ++ unlines ls) := by
        intro x ls; simp [unlines]
      exact e _ (h1.trans (hu _ _))
  subst hL
  rcases h4 with ⟨hall, _⟩ | ⟨s, _, ⟨_, l, hl, _⟩ | ⟨_, ⟨t, ht⟩, _⟩⟩
  · exact absurd (hall [] empty_board) (by simp)
  · cases hl
  · cases ht

theorem grid9_shape : Schema9 (grid9 (some 1) (some 8)) := by
  refine ⟨rfl, by decide, fun row hrow v hv => ?_⟩
  have key : ∀ row ∈ grid9 (some 1) (some 8), ∀ v ∈ row, isAccepted v = true := by decide
  simpa [isAccepted] using key row hrow _ hv

/-- A finished sudoku is its own and only completion, and "all 0 solutions" are found. -/
theorem C76_refuted_sudoku : Completion (grid9 (some 1) (some 8)) (grid9 (some 1) (some 8)) ∧
    ∃ front, ∀ n, program (reader (ofList (ofList ofEntry) (grid9 (some 1) (some 8)))) ["sudoku".toList] n =
      .text (front ++ "\nFound all 0 solutions in 0 seconds\n".toList) := by
  refine ⟨grid9_completion _ _ (.inr rfl) (.inr rfl), ?_⟩
  obtain ⟨w, board, front, -, -, hf, h⟩ := C76_sudoku (reader (ofList (ofList ofEntry) (grid9 (some 1) (some 8)))) (fun _ => .refl _) (fun _ => .refl _)
    (no_options _ .sudoku) (.inr ⟨by simp, rfl⟩) (.default rfl) grid9_shape (by unfold HasBlank; decide)
  exact ⟨_, fun n => (h n).trans rfl⟩

/-- A picture without clues: the blank picture is not shown. -/
theorem C76_refuted_nonogram : Picture [[]] [[], []] [[0, 0]] ∧
    ∃ front, ∀ n, program (reader (.obj [("rows".toList, ofList (ofList ofInt) [[]]), ("columns".toList, ofList (ofList ofInt) [[], []])])) ["nonogram".toList] n =
      .text (front ++ "\nFound all 0 solutions in 0 seconds\n".toList) := by
  refine ⟨⟨rfl, by simp, by simp, by decide, by decide⟩, ?_⟩
  obtain ⟨w, vs, front, -, hf, h⟩ := C76_nonogram (reader (.obj [("rows".toList, ofList (ofList ofInt) [[]]), ("columns".toList, ofList (ofList ofInt) [[], []])]))
    (fun _ => .refl _) (no_options _ .nonogram) (.inr ⟨by simp, rfl⟩) (by simp) (.default rfl) (rows := [[]]) (cols := [[], []]) rfl rfl (by simp) (by simp)
  exact ⟨_, fun n => (h n).trans rfl⟩

/-- A drawing with two blank lines: the drawing itself has these clues, and is not shown. -/
theorem C76_refuted_image : imageToNonogram " _\n".toList = .ok ([[], []], [[], []]) ∧ Picture [[], []] [[], []] [[0, 0], [0, 0]] ∧
    ∀ n, program { exMachine with content := fun _ => " _\n".toList } ["nonogram".toList, "-I".toList, "in.json".toList] n =
      .text "\nFound all 0 solutions in 0 seconds\n".toList := by
  refine ⟨by decide +kernel, ⟨rfl, by simp, by simp, by decide, by decide⟩, ?_⟩
  have hf : Means exOutside (.image "in.json".toList) (.file "in.json".toList) := .image (by decide)
  obtain ⟨width, w, vs, front, -, -, -, hfr, h⟩ := C76_nonogram_image { exMachine with content := fun _ => " _\n".toList } (fun _ => .refl _)
    (ps := [.image "in.json".toList]) (limit := .none) (timeout := .none) (shown := false)
    ⟨.short (p := .image "in.json".toList) .nil, by simp [Piece.Belongs], by simp [Piece.texts, PlainArg],
      by intro p hp; simp only [List.mem_singleton] at hp; subst hp; exact ⟨_, hf⟩,
      .inr ⟨by decide, rfl⟩, .inr ⟨by decide, rfl⟩, .inr ⟨by decide, rfl⟩⟩
    (.inl ⟨[], _, _, rfl, rfl, hf, by decide⟩) (by simp) (lines := [" _".toList, [] ]) (by simp) (by decide) (by decide) (by decide)
  have hfr : front = [] := hfr
  subst hfr
  exact fun n => (h n).trans rfl

/-- A graph without nodes has one labeling, the empty one. -/
theorem C76_refuted_graph : Labeling ([] : List (List Char)) [] ["a".toList] [] ∧
    ∃ front, ∀ n, program { reader .null with graph := fun _ => some ([], []) } ["graph_labeling".toList, "-L".toList, "a".toList] n =
      .text (front ++ "\nFound all 0 solutions in 0 seconds\n".toList) := by
  refine ⟨⟨rfl, by simp, by simp⟩, ?_⟩
  obtain ⟨w, front, -, hf, h⟩ := C76_graph { reader .null with graph := fun _ => some ([], []) } (fun _ => .refl _)
    (ps := [.labels "a".toList []]) (limit := .none) (timeout := .none) (shown := false)
    ⟨.short (p := .labels "a".toList []) .nil, by simp [Piece.Belongs], by simp [Piece.texts, PlainArg],
      by intro p hp; simp only [List.mem_singleton] at hp; subst hp; exact ⟨_, .labels⟩,
      .inr ⟨by decide, rfl⟩, .inr ⟨by decide, rfl⟩, .inr ⟨by decide, rfl⟩⟩
    (.inr ⟨by decide, rfl⟩) (.inl ⟨[], _, _, rfl, rfl, .labels, by decide⟩) (.default rfl) rfl
  exact ⟨_, fun n => (h n).trans rfl⟩

/-- A true equation without letters. -/
theorem C76_refuted_cryptarithm : CSolution true [] (.add (.word "1".toList) (.word "1".toList)) (.word "2".toList) [] ∧
    ∀ n, program exMachine ["cryptarithm".toList, "1+1==2".toList] n = .text "1+1==2\n\nFound all 0 solutions in 0 seconds\n".toList := by
  refine ⟨⟨rfl, by simp, by simp, by simp, fun d _ => rfl⟩, ?_⟩
  obtain ⟨w, avoid, front, -, hf, h⟩ := C76_cryptarithm exMachine (fun _ => .refl _) (fun _ => .refl _) (pre := []) (post := []) .nil .nil (by simp) (by simp)
    (by simp) (source := "1+1==2".toList) (by unfold PlainArg; decide) (by simp) (limit := .none) (timeout := .none) (shown := false)
    (.inr ⟨by simp, rfl⟩) (.inr ⟨by simp, rfl⟩) (.inr ⟨by simp, rfl⟩)
    (l := .add (.word "1".toList) (.word "1".toList)) (r := .word "2".toList)
    ⟨"1+1".toList, "2".toList, rfl,
      .add (s := "1".toList) (t := "1".toList) (.term (.factor (.word (w := "1".toList) (by decide) (by decide))))
        (.factor (.word (w := "1".toList) (by decide) (by decide))),
      .term (.factor (.word (w := "2".toList) (by decide) (by decide)))⟩
    (by
      rintro c ⟨w, hw, hc, hd⟩
      have hw : w ∈ ["1".toList, "1".toList, "2".toList] := hw
      simp only [List.mem_cons, List.not_mem_nil, or_false] at hw
      rcases hw with rfl | rfl | rfl
      · simp at hc; subst hc; exact absurd (by decide) hd
      · simp at hc; subst hc; exact absurd (by decide) hd
      · simp at hc; subst hc; exact absurd (by decide) hd)
  have hf : front = [] := hf
  subst hf
  exact fun n => (h n).trans rfl

theorem file_options (m : Machine) (ho : m.outside = exOutside) (c : Command) (hc : (Piece.file "in.json".toList).Belongs c) :
    Options m c [.file "in.json".toList] ["-i".toList, "in.json".toList] .none .none false ∧
      Asked m.outside [.file "in.json".toList] .inputFile (.file "in.json".toList) := by
  have hf : Means m.outside (.file "in.json".toList) (.file "in.json".toList) := by rw [ho]; exact .file (by decide)
  exact ⟨⟨.short (p := .file "in.json".toList) .nil, by simpa using hc, by simp [Piece.texts, PlainArg],
    by intro p hp; simp only [List.mem_singleton] at hp; subst hp; exact ⟨_, hf⟩,
    .inr ⟨by decide, rfl⟩, .inr ⟨by decide, rfl⟩, .inr ⟨by decide, rfl⟩⟩, .inl ⟨[], _, _, rfl, rfl, hf, by decide⟩⟩

/-- `satisfy graph_labeling -i in.json` with a file that is not JSON -/
example (n : Nat) : program exMachine ["graph_labeling".toList, "-i".toList, "in.json".toList] n = .raised .valueError :=
  have h := file_options exMachine rfl .graphLabeling (by simp [Piece.Belongs])
  C76_not_json exMachine (.inr (.inr (.inl rfl))) h.1 h.2 (by simp) rfl n

/-- `satisfy nonogram -i in.json` with `{"rows": []}` -/
example (n : Nat) : program (reader (.obj [("rows".toList, .arr [])])) ["nonogram".toList, "-i".toList, "in.json".toList] n = .raised .keyError :=
  have h := file_options (reader (.obj [("rows".toList, .arr [])])) rfl .nonogram (by simp [Piece.Belongs])
  C76_nonogram_key _ h.1 h.2 (by simp) rfl (.inr (by decide)) n

/-- `satisfy knapsack -i in.json` with `{"values": [], "capacities": [7]}`, `{"values": [], "capacities": [7], "weights": []}` and
`{"values": [3, true], "capacities": [7], "weights": [[2], [null]]}` -/
example (n : Nat) : program (reader (.obj [("values".toList, .arr []), ("capacities".toList, .arr [.num 7])])) ["knapsack".toList, "-i".toList, "in.json".toList] n =
    .raised .keyError :=
  have h := file_options (reader (.obj [("values".toList, .arr []), ("capacities".toList, .arr [.num 7])])) rfl .knapsack (by simp [Piece.Belongs])
  C76_knapsack_key _ h.1 h.2 (.file rfl) ⟨"weights", by decide, by decide⟩ n

example (n : Nat) : program (reader (.obj [("values".toList, .arr []), ("capacities".toList, .arr [.num 7]), ("weights".toList, .arr [])]))
    ["knapsack".toList, "-i".toList, "in.json".toList] n = .raised .attributeError :=
  have h := file_options (reader (.obj [("values".toList, .arr []), ("capacities".toList, .arr [.num 7]), ("weights".toList, .arr [])])) rfl .knapsack (by simp [Piece.Belongs])
  (C76_knapsack_wrong _ h.1 h.2 (.file rfl) (values := []) (caps := [.num 7]) (rows := []) rfl rfl rfl n).1 rfl

example (n : Nat) : program (reader (.obj [("values".toList, .arr [.num 3, .bool true]), ("capacities".toList, .arr [.num 7]),
    ("weights".toList, .arr [.arr [.num 2], .arr [.null]])])) ["knapsack".toList, "-i".toList, "in.json".toList] n = .raised .typeError :=
  have h := file_options (reader (.obj [("values".toList, .arr [.num 3, .bool true]), ("capacities".toList, .arr [.num 7]),
    ("weights".toList, .arr [.arr [.num 2], .arr [.null]])])) rfl .knapsack (by simp [Piece.Belongs])
  ((C76_knapsack_wrong _ h.1 h.2 (.file rfl) (values := [.num 3, .bool true]) (caps := [.num 7]) (rows := [[.num 2], [.null]]) rfl rfl rfl n).2.2 (by simp)
    (by simp [IntDoc])).1 1 [.null] .typeError rfl (.inr ⟨rfl, by decide, rfl, .null, by simp, by simp [IntDoc]⟩) (by
      intro i' row' e' hi hr
      obtain rfl : i' = 0 := by omega
      cases hr
      simp [RowWrong, IntDoc])

/-- `satisfy sudoku -i in.json` with a grid with the entry 10, and with a grid of 8 rows -/
example (n : Nat) : ∃ e, program (reader (ofList (ofList ofEntry) (grid9 (some 10) none))) ["sudoku".toList, "-i".toList, "in.json".toList] n = .raised e :=
  have h := file_options (reader (ofList (ofList ofEntry) (grid9 (some 10) none))) rfl .sudoku (by simp [Piece.Belongs])
  (C76_sudoku_wrong _ (fun _ => .refl _) h.1 h.2 (.file rfl) n).1 (fun h9 => by
    have := h9.entries _ (List.mem_cons_self) 10 (List.mem_cons_self)
    omega)

example (n : Nat) : program (reader (ofList (ofList ofEntry) ((grid9 none none).take 8))) ["sudoku".toList, "-i".toList, "in.json".toList] n = .raised .indexError :=
  have h := file_options (reader (ofList (ofList ofEntry) ((grid9 none none).take 8))) rfl .sudoku (by simp [Piece.Belongs])
  (C76_sudoku_wrong _ (fun _ => .refl _) h.1 h.2 (.file rfl) n).2.1 (by decide)

/-- `satisfy cryptarithm A*0==B*0` -/
example (n : Nat) : program exMachine ["cryptarithm".toList, "A*0==B*0".toList] n = .raised .typeError :=
  C76_cryptarithm_constant exMachine (fun _ => .refl _) (pre := []) (post := []) .nil .nil (by simp) (by simp)
    (by simp) (source := "A*0==B*0".toList) (by unfold PlainArg; decide) (by simp)
    (l := .mul (.word "A".toList) (.word "0".toList)) (r := .mul (.word "B".toList) (.word "0".toList))
    ⟨"A*0".toList, "B*0".toList, rfl,
      .term (.mul (s := "A".toList) (t := "0".toList) (.factor (.word (w := "A".toList) (by decide) (by decide))) (.word (w := "0".toList) (by decide) (by decide))),
      .term (.mul (s := "B".toList) (t := "0".toList) (.factor (.word (w := "B".toList) (by decide) (by decide))) (.word (w := "0".toList) (by decide) (by decide)))⟩
    ⟨⟨0, by decide⟩, 0, by decide⟩ n

end Satisfy.Props
