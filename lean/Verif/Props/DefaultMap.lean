import Verif.Props.DefaultSudoku
/-!
# The default map can be coloured with four colours: C74

A painting gives a character for a colour to every cell. `fits` goes through the pairs of neighbours; that its answer is right is proved for every map.
-/

namespace Satisfy.Props
open Satisfy

/-- Two neighbours, each a letter and a colour: the same letter if and only if the same colour, unless one is blank. -/
def fit (u v : Char × Char) : Bool := u.1 == ' ' || v.1 == ' ' || ((u.1 == v.1) == (u.2 == v.2))

/-- The neighbours in a row and the next one fit. -/
def fitsNext (u : List (Char × Char)) : List (List (Char × Char)) → Bool
  | [] => true
  | v :: _ => (u.zip v).all (fun p => fit p.1 p.2) && (u.zip v.tail).all (fun p => fit p.1 p.2) && (u.tail.zip v).all (fun p => fit p.1 p.2)

/-- All neighbours in rows and in consecutive rows fit. -/
def fits : List (List (Char × Char)) → Bool
  | [] => true
  | u :: Z => (u.zip u.tail).all (fun p => fit p.1 p.2) && fitsNext u Z && fits Z

theorem fit_comm (u v : Char × Char) : fit u v = fit v u := by
  unfold fit
  rw [Bool.or_comm (u.1 == ' '), BEq.comm (a := u.1) (b := v.1), BEq.comm (a := u.2) (b := v.2)]

theorem zip_all {l l' : List (Char × Char)} (h : (l.zip l').all (fun p => fit p.1 p.2) = true) {c : Nat} {u v : Char × Char} (hu : l[c]? = some u) (hv : l'[c]? = some v) :
    fit u v = true :=
  List.all_eq_true.1 h (u, v) (List.mem_of_getElem? (by rw [List.getElem?_zip_eq_some]; exact ⟨hu, hv⟩))

theorem fits_row {Z : List (List (Char × Char))} (h : fits Z = true) {r c : Nat} {row : List (Char × Char)} {u v : Char × Char} (hr : Z[r]? = some row)
    (hu : row[c]? = some u) (hv : row[c + 1]? = some v) : fit u v = true := by
  induction Z generalizing r with
  | nil => simp at hr
  | cons w Z ih =>
    rw [fits, Bool.and_eq_true, Bool.and_eq_true] at h
    cases r with
    | zero =>
      cases hr
      exact zip_all h.1.1 hu (by rw [List.getElem?_tail]; exact hv)
    | succ r => exact ih h.2 hr

theorem fits_rows {Z : List (List (Char × Char))} (h : fits Z = true) {r c c' : Nat} {row row' : List (Char × Char)} {u v : Char × Char} (hr : Z[r]? = some row)
    (hr' : Z[r + 1]? = some row') (hu : row[c]? = some u) (hv : row'[c']? = some v) (hc : c' = c ∨ c' = c + 1 ∨ c = c' + 1) : fit u v = true := by
  induction Z generalizing r with
  | nil => simp at hr
  | cons w Z ih =>
    rw [fits, Bool.and_eq_true, Bool.and_eq_true] at h
    cases r with
    | zero =>
      cases hr
      cases Z with
      | nil => simp at hr'
      | cons x Z =>
        cases hr'
        have h2 := h.1.2
        rw [fitsNext, Bool.and_eq_true, Bool.and_eq_true] at h2
        rcases hc with rfl | rfl | rfl
        · exact zip_all h2.1.1 hu hv
        · exact zip_all h2.1.2 hu (by rw [List.getElem?_tail]; exact hv)
        · exact zip_all h2.2 (by rw [List.getElem?_tail]; exact hu) hv
    | succ r => exact ih h.2 hr hr'

theorem cell_nat {α : Type} {Z : List (List α)} {p : Pos} {u : α} (h : cell Z p = some u) :
    ∃ (r c : Nat) (row : List α), p = ((r : Int), (c : Int)) ∧ Z[r]? = some row ∧ row[c]? = some u := by
  unfold cell at h
  split_ifs at h with hp
  obtain ⟨row, h1, h2⟩ := Option.bind_eq_some_iff.1 h
  refine ⟨p.1.toNat, p.2.toNat, row, ?_, h1, h2⟩
  ext
  · simp only; omega
  · simp only; omega

/-- Neighbours fit. -/
theorem fits_adjacent {Z : List (List (Char × Char))} (h : fits Z = true) {p q : Pos} {u v : Char × Char} (hp : cell Z p = some u) (hq : cell Z q = some v)
    (ha : Adjacent p q) : fit u v = true := by
  obtain ⟨r, c, row, rfl, h1, h2⟩ := cell_nat hp
  obtain ⟨r', c', row', rfl, h1', h2'⟩ := cell_nat hq
  obtain ⟨a1, a2, a3⟩ := ha
  simp only at a2 a3
  have hr : r' = r ∨ r' = r + 1 ∨ r = r' + 1 := by omega
  have hc : c' = c ∨ c' = c + 1 ∨ c = c' + 1 := by omega
  rcases hr with rfl | rfl | rfl
  · rw [h1] at h1'
    cases h1'
    rcases hc with rfl | rfl | rfl
    · exact absurd rfl a1
    · exact fits_row h h1 h2 h2'
    · rw [fit_comm]; exact fits_row h h1 h2' h2
  · exact fits_rows h h1 h1' h2 h2' hc
  · rw [fit_comm]
    exact fits_rows h h1' h1 h2' h2 (by omega)

/-- The letter for a number. -/
def letterOf (n : Nat) : Char := "0123456789ABCDEFGHIJKLMNOPQRSTUVWXYZ".toList.getD (n % 36) '0'

theorem letterOf_eq (n : Nat) : "0123456789ABCDEFGHIJKLMNOPQRSTUVWXYZ".toList[n % 36]? = some (letterOf n) := by
  have h : n % 36 < 36 := Nat.mod_lt _ (by decide)
  have key : ∀ k < 36, "0123456789ABCDEFGHIJKLMNOPQRSTUVWXYZ".toList[k]? = some ("0123456789ABCDEFGHIJKLMNOPQRSTUVWXYZ".toList.getD k '0') := by decide
  exact key _ h

/-- The coloured map for a painting: numbers from `num`, colours from `f`. -/
def painted {β : Type} (num : Pos → Nat) (f : Char → β) (Z : List (List (Char × Char))) : List (List (Option (Char × β))) :=
  Z.mapIdx (fun r row => row.mapIdx (fun c u => if u.1 = ' ' then none else some (letterOf (num ((r : Int), (c : Int))), f u.2)))

theorem painted_cell {β : Type} (num : Pos → Nat) (f : Char → β) (Z : List (List (Char × Char))) {p : Pos} {u : Char × Char} (h : cell Z p = some u) :
    cell (painted num f Z) p = some (if u.1 = ' ' then none else some (letterOf (num p), f u.2)) := by
  obtain ⟨r, c, row, rfl, h1, h2⟩ := cell_nat h
  unfold cell painted
  rw [if_pos ⟨Int.natCast_nonneg _, Int.natCast_nonneg _⟩]
  simp [h1, h2]

theorem cell_fst {Z : List (List (Char × Char))} {p : Pos} {x : Char} (h : cell (Z.map (List.map Prod.fst)) p = some x) : ∃ k, cell Z p = some (x, k) := by
  obtain ⟨r, c, row, rfl, h1, h2⟩ := cell_nat h
  simp only [List.getElem?_map, Option.map_eq_some_iff] at h1
  obtain ⟨row', h1, rfl⟩ := h1
  simp only [List.getElem?_map, Option.map_eq_some_iff] at h2
  obtain ⟨⟨a, k⟩, h2, rfl⟩ := h2
  refine ⟨k, ?_⟩
  unfold cell
  rw [if_pos ⟨Int.natCast_nonneg _, Int.natCast_nonneg _⟩]
  simp [h1, h2]

/-- A painting that fits, without dots and with known colours, is a result for the map. -/
theorem painted_ok {Z : List (List (Char × Char))} (h : fits Z = true) {β : Type} {colors : List β} {f : Char → β} {num : Pos → Nat}
    (hn : Numbering (Z.map (List.map Prod.fst)) num) (hf : ∀ row ∈ Z, ∀ u ∈ row, u.1 ≠ '.' ∧ (u.1 ≠ ' ' → f u.2 ∈ colors))
    (hi : ∀ row ∈ Z, ∀ u ∈ row, ∀ row' ∈ Z, ∀ v ∈ row', u.1 ≠ ' ' → v.1 ≠ ' ' → f u.2 = f v.2 → u.2 = v.2) :
    Painted (Z.map (List.map Prod.fst)) num colors (painted num f Z) := by
  have mem : ∀ {p u}, cell Z p = some u → ∃ row ∈ Z, u ∈ row := by
    intro p u hu
    obtain ⟨r, c, row, _, h1, h2⟩ := cell_nat hu
    exact ⟨row, List.mem_of_getElem? h1, List.mem_of_getElem? h2⟩
  have blank : ∀ {p u}, cell Z p = some u → (Satisfy.Blank u.1 ↔ u.1 = ' ') := by
    intro p u hu
    obtain ⟨row, m1, m2⟩ := mem hu
    exact ⟨fun hb => hb.resolve_right (hf row m1 u m2).1, .inl⟩
  refine ⟨⟨?_, ?_, ?_, ?_, ?_⟩, ?_⟩
  · apply List.ext_getElem?
    intro i
    simp only [painted, List.getElem?_map, List.getElem?_mapIdx, Option.map_map]
    cases Z[i]? <;> simp
  · intro p x hp hb
    obtain ⟨k, hk⟩ := cell_fst hp
    rw [painted_cell num f Z hk, if_pos ((blank hk).1 hb)]
  · intro p x hp hb
    obtain ⟨k, hk⟩ := cell_fst hp
    have hx : x ≠ ' ' := fun e => hb (.inl e)
    obtain ⟨row, m1, m2⟩ := mem hk
    exact ⟨_, _, by rw [painted_cell num f Z hk, if_neg hx], (hf row m1 _ m2).2 hx⟩
  · intro p q x ha hp hq hb
    obtain ⟨k, hk⟩ := cell_fst hp
    obtain ⟨k', hk'⟩ := cell_fst hq
    have hx : x ≠ ' ' := fun e => hb (.inl e)
    have he : num p = num q := (hn.region p q x x hp hq hb hb).2 ⟨x, hb, hp, .single ⟨ha, hq⟩⟩
    have hk0 := fits_adjacent h hk hk' ha
    have : k = k' := by simpa [fit, hx] using hk0
    rw [painted_cell num f Z hk, painted_cell num f Z hk', he, this]
  · intro p q x y ha hp hq hb hb' hxy l c l' c' e e' hc
    obtain ⟨k, hk⟩ := cell_fst hp
    obtain ⟨k', hk'⟩ := cell_fst hq
    have hx : x ≠ ' ' := fun e => hb (.inl e)
    have hy : y ≠ ' ' := fun e => hb' (.inl e)
    rw [painted_cell num f Z hk, if_neg hx] at e
    rw [painted_cell num f Z hk', if_neg hy] at e'
    cases e
    cases e'
    obtain ⟨row, m1, m2⟩ := mem hk
    obtain ⟨row', m1', m2'⟩ := mem hk'
    have e2 : k = k' := hi row m1 _ m2 row' m1' _ m2' hx hy hc
    have hk0 := fits_adjacent h hk hk' ha
    simp [fit, hx, hy, hxy, e2] at hk0
  · intro p l c hp
    obtain ⟨r, c', row, rfl, h1, h2⟩ := cell_nat hp
    have : ∃ u, cell Z ((r : Int), (c' : Int)) = some u := by
      unfold painted at h1
      rw [List.getElem?_mapIdx, Option.map_eq_some_iff] at h1
      obtain ⟨row', h1, rfl⟩ := h1
      rw [List.getElem?_mapIdx, Option.map_eq_some_iff] at h2
      obtain ⟨u, h2, _⟩ := h2
      refine ⟨u, ?_⟩
      unfold cell
      rw [if_pos ⟨Int.natCast_nonneg _, Int.natCast_nonneg _⟩]
      simp [h1, h2]
    obtain ⟨u, hu⟩ := this
    rw [painted_cell num f Z hu] at hp
    by_cases hx : u.1 = ' '
    · rw [if_pos hx] at hp; cases hp
    · rw [if_neg hx] at hp
      cases hp
      exact letterOf_eq _

/-- A painting of the default map: in every row, how often which letter and colour. -/
def defaultPaint : List (List (Nat × Char × Char)) :=
  [[(11, ' ', ' '), (3, '0', 'g'), (8, '1', 'b'), (2, '4', 'g')],
   [(8, ' ', ' '), (4, '0', 'g'), (10, '1', 'b'), (2, '4', 'g'), (2, '3', 'r'), (5, ' ', ' '), (2, '3', 'r')],
   [(6, ' ', ' '), (3, '0', 'g'), (15, '1', 'b'), (14, '3', 'r'), (4, '2', 'y'), (1, ' ', ' ')],
   [(4, ' ', ' '), (5, '2', 'r'), (15, '1', 'b'), (16, '3', 'r'), (5, '2', 'y')],
   [(3, ' ', ' '), (4, '2', 'r'), (4, '3', 'g'), (14, '1', 'b'), (15, '3', 'r'), (6, '2', 'y')],
   [(3, ' ', ' '), (4, '2', 'r'), (4, '3', 'g'), (3, '6', 'r'), (12, '1', 'b'), (14, '3', 'r'), (7, '2', 'y')],
   [(2, ' ', ' '), (9, '3', 'g'), (5, '6', 'r'), (11, '1', 'b'), (5, 'F', 'g'), (6, 'H', 'b'), (1, '3', 'r'), (9, '2', 'y')],
   [(1, ' ', ' '), (10, '3', 'g'), (9, '6', 'r'), (5, '1', 'b'), (6, 'F', 'g'), (8, 'H', 'b'), (10, 'Z', 'g'), (1, ' ', ' ')],
   [(11, '3', 'g'), (9, '6', 'r'), (11, 'F', 'g'), (8, 'H', 'b'), (10, 'Z', 'g'), (3, 'Y', 'r'), (2, ' ', ' '), (5, 'X', 'g')],
   [(6, '4', 'b'), (13, '6', 'r'), (11, 'F', 'g'), (9, 'H', 'b'), (9, 'Z', 'g'), (4, 'Y', 'r'), (7, 'X', 'g')],
   [(1, ' ', ' '), (5, '4', 'b'), (7, '6', 'r'), (2, 'B', 'g'), (1, 'C', 'y'), (3, 'D', 'b'), (2, 'E', 'y'), (9, 'F', 'g'), (9, 'H', 'b'), (8, 'Z', 'g'), (7, 'Y', 'r'), (4, 'X', 'g')],
   [(2, ' ', ' '), (3, '5', 'g'), (7, '6', 'r'), (1, 'A', 'b'), (3, 'B', 'g'), (1, 'C', 'y'), (2, 'D', 'b'), (11, 'E', 'y'), (1, 'G', 'r'), (8, 'H', 'b'), (1, 'I', 'y'), (8, 'Z', 'g'), (4, 'Y', 'r'), (4, 'X', 'g')],
   [(3, ' ', ' '), (3, '6', 'r'), (1, '7', 'b'), (3, '8', 'g'), (3, 'A', 'b'), (3, 'B', 'g'), (1, 'C', 'y'), (3, 'D', 'b'), (9, 'E', 'y'), (3, 'G', 'r'), (7, 'H', 'b'), (2, 'I', 'y'), (6, 'Z', 'g'), (4, 'Y', 'r'), (3, 'X', 'g'), (1, ' ', ' ')],
   [(4, ' ', ' '), (3, '7', 'b'), (4, '9', 'r'), (2, 'A', 'b'), (4, 'B', 'g'), (1, 'C', 'y'), (2, 'D', 'b'), (5, 'E', 'y'), (7, 'G', 'r'), (3, 'H', 'b'), (6, 'I', 'y'), (4, 'Z', 'g'), (3, 'V', 'b'), (2, 'Y', 'r'), (2, 'X', 'g')],
   [(8, ' ', ' '), (3, '9', 'r'), (2, 'A', 'b'), (4, 'B', 'g'), (1, 'C', 'y'), (2, 'D', 'b'), (2, 'E', 'y'), (8, 'G', 'r'), (11, 'I', 'y'), (1, '0', 'b'), (4, 'U', 'r'), (5, 'V', 'b')],
   [(22, ' ', ' '), (7, 'G', 'r'), (10, 'I', 'y'), (2, '1', 'g'), (5, 'U', 'r'), (4, 'V', 'b')],
   [(21, ' ', ' '), (3, 'K', 'b'), (4, 'L', 'g'), (2, 'J', 'b'), (6, 'I', 'y'), (3, 'J', 'b'), (8, 'U', 'r'), (2, 'V', 'b')],
   [(22, ' ', ' '), (2, 'K', 'b'), (3, 'L', 'g'), (12, 'J', 'b'), (8, 'U', 'r'), (1, 'V', 'b')],
   [(23, ' ', ' '), (1, 'K', 'b'), (2, 'L', 'g'), (13, 'J', 'b'), (8, 'U', 'r')],
   [(23, ' ', ' '), (5, 'M', 'r'), (11, 'J', 'b'), (8, 'U', 'r')],
   [(23, ' ', ' '), (7, 'M', 'r'), (8, 'J', 'b'), (5, 'T', 'g'), (4, 'U', 'r')],
   [(23, ' ', ' '), (10, 'M', 'r'), (5, 'J', 'b'), (5, 'T', 'g'), (4, 'S', 'b')],
   [(23, ' ', ' '), (11, 'M', 'r'), (1, 'J', 'b'), (6, 'T', 'g'), (6, 'S', 'b')],
   [(22, ' ', ' '), (11, 'M', 'r'), (5, 'T', 'g'), (8, 'S', 'b')],
   [(23, ' ', ' '), (11, 'N', 'b'), (5, 'Q', 'r'), (5, 'S', 'b'), (1, ' ', ' ')],
   [(24, ' ', ' '), (6, 'N', 'b'), (7, 'Q', 'r'), (3, 'O', 'g'), (3, 'S', 'b')],
   [(25, ' ', ' '), (5, 'N', 'b'), (3, 'Q', 'r'), (8, 'O', 'g'), (2, 'R', 'r')],
   [(25, ' ', ' '), (5, 'N', 'b'), (8, 'O', 'g'), (2, 'P', 'r'), (1, 'O', 'g'), (1, 'R', 'r')],
   [(26, ' ', ' '), (4, 'N', 'b'), (10, 'O', 'g')],
   [(27, ' ', ' '), (11, 'O', 'g'), (1, ' ', ' ')],
   [(29, ' ', ' '), (5, 'O', 'g'), (4, ' ', ' ')],
   []]

/-- The colour for a character. -/
def paintOf (k : Char) : List Char := if k = 'r' then "red".toList else if k = 'b' then "blue".toList else if k = 'g' then "green".toList else "yellow".toList

/-- The default map with its painting. -/
def defaultPairs : List (List (Char × Char)) := defaultPaint.map (List.flatMap (fun x => List.replicate x.1 x.2))

/-- The default colours. -/
def fourColors : List (List Char) := ["red".toList, "blue".toList, "green".toList, "yellow".toList]

set_option maxRecDepth 20000 in
theorem default_texts : defaultMap = (defaultPairs.map (List.map Prod.fst)).map String.ofList := rfl

theorem default_map : defaultMap.map String.toList = defaultPairs.map (List.map Prod.fst) := by
  rw [default_texts]
  generalize defaultPairs.map (List.map Prod.fst) = l
  simp [Function.comp_def]

theorem default_fits : fits defaultPairs = true := by decide +kernel

/-- For every numbering of its regions the default map has a colouring. -/
theorem default_painted {num : Pos → Nat} (hn : Numbering (defaultMap.map String.toList) num) :
    ∃ M, Painted (defaultMap.map String.toList) num fourColors M := by
  rw [default_map] at hn ⊢
  have key : ∀ row ∈ defaultPairs, ∀ u ∈ row, u.1 ≠ '.' ∧ u.2 ∈ [' ', 'r', 'b', 'g', 'y'] ∧ (u.1 ≠ ' ' → u.2 ≠ ' ') := by decide +kernel
  have inj : ∀ a ∈ ['r', 'b', 'g', 'y'], paintOf a ∈ fourColors ∧ ∀ b ∈ ['r', 'b', 'g', 'y'], paintOf a = paintOf b → a = b := by decide +kernel
  have col : ∀ row ∈ defaultPairs, ∀ u ∈ row, u.1 ≠ ' ' → u.2 ∈ ['r', 'b', 'g', 'y'] := by
    intro row hr u hu hx
    obtain ⟨_, k2, k3⟩ := key row hr u hu
    rcases List.mem_cons.1 k2 with h | h
    · exact absurd h (k3 hx)
    · exact h
  exact ⟨_, painted_ok (f := paintOf) default_fits hn (fun row hr u hu => ⟨(key row hr u hu).1, fun hx => (inj _ (col row hr u hu hx)).1⟩)
    (fun row hr u hu row' hr' v hv hx hy e => (inj _ (col row hr u hu hx)).2 _ (col row' hr' v hv hy) e)⟩

theorem report_partial {β : Type} {fmt : Int → String} {V : β → Prop} {shows : β → List (List Char) → Prop} {lines : List (List Char)} (h : Report fmt V shows (.int 1) .none lines) (hx : ∃ x, V x) :
    ∃ x ls secs, V x ∧ shows x ls ∧ lines = "\n=== solution 1 ===".toList :: ls ++ [("\nFound 1 partial solution in " ++ fmt secs ++ " seconds [limit reached]").toList] := by
  obtain ⟨x, hx⟩ := hx
  obtain ⟨L, body, last, secs, rfl, h2, _, h4, h5⟩ := h
  have r6 : L.length = 1 ∧ last = "\nFound 1 partial solution in " ++ fmt secs ++ " seconds [limit reached]" := by
    rcases h5 with ⟨a1, a2, _⟩ | ⟨s, a1, ⟨a2, l, a3, a4⟩ | ⟨_, ⟨t, a3⟩, _⟩⟩
    · have := a1 x hx
      rcases a2 with rfl | a2
      · cases this
      · have := a2 1 rfl
        have : L.length = 0 := by omega
        rw [List.length_eq_zero_iff] at this
        subst this
        cases a1 x hx
    · cases a3
      have e : L.length = 1 := a4
      refine ⟨e, ?_⟩
      rcases a1 with ⟨rfl, _⟩ | ⟨_, h⟩
      · rw [a2, e]; rfl
      · exact absurd e h
    · cases a3
  obtain ⟨e, rfl⟩ := r6
  obtain ⟨B, rfl⟩ := List.length_eq_one_iff.1 e
  cases h2 with
  | cons hd tl =>
    cases tl
    exact ⟨B, _, secs, h4 _ (by simp), hd, by rw [List.append_nil]; rfl⟩

/-- `satisfy ascii_map_coloring`: the default map as text, and a colouring of it in red, blue, green and yellow. -/
theorem C74_map_default (m : Machine) (hs : ∀ l, (m.shuffle l).Perm l) (ho : ∀ l, (m.positions l).Perm l) :
    ∃ num, Numbering (defaultMap.map String.toList) num ∧ ∃ N, ∀ n ≥ N, ∃ M text secs, program m ["ascii_map_coloring".toList] n =
        .text (unlines ("No input file - using default data:".toList :: defaultMap.map String.toList ++
          [[], "\n=== solution 1 ===".toList, text, ("\nFound 1 partial solution in " ++ m.fmt secs ++ " seconds [limit reached]").toList])) ∧
      Painted (defaultMap.map String.toList) num ["red".toList, "blue".toList, "green".toList, "yellow".toList] M ∧ MapPicture m.colored M text := by
  obtain ⟨_, rfl, w, groups, d, num, front, _, h2, h3, N, h4⟩ := C74_map m hs ho (no_options m .asciiMapColoring) (by simp) (colors := fourColors)
    (.inr ⟨by simp, rfl⟩) (by decide)
  have h3 : front = [] := by simpa [ModelShown] using h3
  subst h3
  refine ⟨num, h2, N, fun n hn => ?_⟩
  obtain ⟨lines, h5, h6⟩ := h4 n hn
  obtain ⟨M, ls, secs, h7, ⟨text, rfl, h8⟩, rfl⟩ := report_partial h6 (default_painted h2)
  refine ⟨M, text, secs, ?_, h7, h8⟩
  rw [h5]
  refine congrArg Output.text ?_
  generalize defaultMap.map String.toList = d
  generalize "No input file - using default data:".toList = a
  generalize "\n=== solution 1 ===".toList = b
  generalize ("\nFound 1 partial solution in " ++ m.fmt secs ++ " seconds [limit reached]").toList = c
  simp [unlines]

/-- `satisfy ascii_map_coloring` -/
example := C74_map_default exMachine (fun _ => .refl _) (fun _ => .refl _)

end Satisfy.Props
