import Verif.MapColoring
import Verif.Lemmas.Graph
import Verif.Lemmas.Sudoku
import Verif.Props.Image
/-! Lemmas on map colouring: grids, regions, edges, painting. -/

namespace Satisfy
open Satisfy.Props

/-! ## Grids -/

section
variable {α : Type}

theorem cell_some {rows : List (List α)} {p : Pos} {x : α} (h : cell rows p = some x) :
    ∃ (r c : Nat) (hr : r < rows.length) (hc : c < rows[r].length), p = ((r : Int), (c : Int)) ∧ rows[r][c] = x := by
  unfold cell at h
  split at h
  · rename_i hp
    obtain ⟨r, c⟩ := p
    obtain ⟨hr, hc⟩ := hp
    obtain ⟨r, rfl⟩ := Int.eq_ofNat_of_zero_le hr
    obtain ⟨c, rfl⟩ := Int.eq_ofNat_of_zero_le hc
    simp only [Int.toNat_natCast] at h
    cases hrow : rows[r]? with
    | none => rw [hrow] at h; simp at h
    | some row =>
      rw [hrow] at h
      simp only [Option.bind_some] at h
      obtain ⟨h1, h2⟩ := List.getElem?_eq_some_iff.1 hrow
      subst h2
      obtain ⟨h3, h4⟩ := List.getElem?_eq_some_iff.1 h
      exact ⟨r, c, h1, h3, rfl, h4⟩
  · cases h

theorem cell_nat (rows : List (List α)) (r c : Nat) : cell rows ((r : Int), (c : Int)) = (rows[r]?).bind (fun row => row[c]?) := by
  simp [cell]

theorem gridAt_ok {rows : List (List α)} {p : Pos} {x : α} (h : cell rows p = some x) : gridAt rows p = .ok x := by
  obtain ⟨r, c, hr, hc, rfl, rfl⟩ := cell_some h
  unfold gridAt
  rw [listAt_nat hr]
  exact listAt_nat hc

theorem gridSet_ok {rows : List (List α)} {p : Pos} {x : α} (h : cell rows p = some x) (y : α) :
    ∃ rows', gridSet rows p y = .ok rows' ∧ (∀ q, cell rows' q = if q = p then some y else cell rows q) ∧
      rows'.map List.length = rows.map List.length := by
  obtain ⟨r, c, hr, hc, rfl, rfl⟩ := cell_some h
  refine ⟨rows.set r (rows[r].set c y), ?_, ?_, ?_⟩
  · unfold gridSet
    rw [listAt_nat hr]
    show (do let row ← listSet rows[r] (c : Int) y; listSet rows (r : Int) row) = _
    rw [listSet_nat hc]
    exact listSet_nat hr _
  · intro q
    by_cases hq : 0 ≤ q.1 ∧ 0 ≤ q.2
    · obtain ⟨r', c'⟩ := q
      obtain ⟨r', rfl⟩ := Int.eq_ofNat_of_zero_le hq.1
      obtain ⟨c', rfl⟩ := Int.eq_ofNat_of_zero_le hq.2
      simp only [cell_nat, Prod.mk.injEq, Nat.cast_inj, List.getElem?_set]
      by_cases h1 : r = r'
      · subst h1
        simp only [hr, if_true, Option.bind_some, List.getElem?_set]
        by_cases h2 : c = c'
        · subst h2; simp [hc]
        · simp [h2, hr, Ne.symm h2]
      · simp [h1, Ne.symm h1]
    · have hne : q ≠ ((r : Int), (c : Int)) := by rintro rfl; exact hq ⟨by simp, by simp⟩
      simp [cell, hq, hne]
  · apply List.ext_getElem
    · simp
    · intro i h1 h2
      simp only [List.getElem_map, List.getElem_set]
      split
      · rename_i he; subst he; simp
      · rfl

/-- Grids with the same shape and the same cells are equal. -/
theorem grid_ext {M M' : List (List α)} (hs : M.map List.length = M'.map List.length) (hc : ∀ p, cell M p = cell M' p) : M = M' := by
  have hl : M.length = M'.length := by simpa using congrArg List.length hs
  apply List.ext_getElem hl
  intro r h1 h2
  have hrow : M[r].length = M'[r].length := by
    have : (M.map List.length)[r]'(by simpa) = (M'.map List.length)[r]'(by simpa) := by simp only [hs]
    simpa using this
  apply List.ext_getElem hrow
  intro c h3 h4
  have := hc ((r : Int), (c : Int))
  rw [cell_nat, cell_nat] at this
  simpa [h1, h2, h3, h4] using this

theorem cell_map {β : Type} (f : α → β) (M : List (List α)) (p : Pos) : cell (M.map (fun row => row.map f)) p = (cell M p).map f := by
  unfold cell
  split
  · simp only [List.getElem?_map]
    cases M[p.1.toNat]? <;> simp
  · rfl

theorem cell_isSome_shape {β : Type} {M : List (List α)} {M' : List (List β)} (hs : M.map List.length = M'.map List.length) (p : Pos) :
    (cell M p).isSome = (cell M' p).isSome := by
  unfold cell
  split
  · have h1 : (M.map List.length)[p.1.toNat]? = (M'.map List.length)[p.1.toNat]? := by rw [hs]
    rw [List.getElem?_map, List.getElem?_map] at h1
    cases h2 : M[p.1.toNat]? <;> cases h3 : M'[p.1.toNat]? <;> rw [h2, h3] at h1 <;> simp at h1 ⊢
    by_cases hc : p.2.toNat < (‹List α› : List α).length
    · rw [List.getElem?_eq_getElem hc, List.getElem?_eq_getElem (by omega)]; simp
    · rw [List.getElem?_eq_none (by omega), List.getElem?_eq_none (by omega)]; simp
  · rfl

end

/-! ## Neighbours -/

theorem adjacent_iff (p q : Pos) : Adjacent p q ↔ ∃ o ∈ mapOffsets, q = (p.1 + o.1, p.2 + o.2) := by
  obtain ⟨r, c⟩ := p
  obtain ⟨r', c'⟩ := q
  simp only [Adjacent, mapOffsets, List.mem_cons, List.not_mem_nil, or_false, exists_eq_or_imp, exists_eq_left, ne_eq, Prod.mk.injEq]
  omega

theorem Adjacent.symm {p q : Pos} (h : Adjacent p q) : Adjacent q p := ⟨fun e => h.1 e.symm, by have := h.2; omega, by have := h.2; omega⟩

theorem mem_setAdd {α : Type} [DecidableEq α] {s : List α} {x y : α} : y ∈ setAdd s x ↔ y ∈ s ∨ y = x := by
  unfold setAdd
  split
  · rename_i h
    constructor
    · exact .inl
    · rintro (h' | rfl) <;> assumption
  · simp

theorem mem_floodNeighbors (nr nc : Nat) (p : Pos) (group : List Pos) (q : Pos) : ∀ (os new : List Pos),
    q ∈ floodNeighbors nr nc p group os new ↔
      q ∈ new ∨ ((∃ o ∈ os, q = (p.1 + o.1, p.2 + o.2)) ∧ (0 ≤ q.1 ∧ q.1 < nr ∧ 0 ≤ q.2 ∧ q.2 < nc) ∧ q ∉ group) := by
  intro os
  induction os with
  | nil => intro new; simp [floodNeighbors]
  | cons o os ih =>
    intro new
    rw [floodNeighbors]
    simp only
    rw [ih]
    simp only [List.mem_cons, exists_eq_or_imp]
    by_cases hr : 0 ≤ p.1 + o.1 ∧ p.1 + o.1 < nr ∧ 0 ≤ p.2 + o.2 ∧ p.2 + o.2 < nc
    · by_cases hg : (p.1 + o.1, p.2 + o.2) ∈ group
      · simp only [hr, and_self, if_true, hg, not_true, if_false]
        constructor
        · rintro (h | ⟨h1, h2⟩)
          · exact .inl h
          · exact .inr ⟨.inr h1, h2⟩
        · rintro (h | ⟨rfl | h1, h2⟩)
          · exact .inl h
          · exact absurd hg h2.2
          · exact .inr ⟨h1, h2⟩
      · simp only [hr, and_self, if_true, hg, not_false_eq_true, mem_setAdd]
        constructor
        · rintro ((h | rfl) | ⟨h1, h2⟩)
          · exact .inl h
          · exact .inr ⟨.inl rfl, hr, hg⟩
          · exact .inr ⟨.inr h1, h2⟩
        · rintro (h | ⟨rfl | h1, h2⟩)
          · exact .inl (.inl h)
          · exact .inl (.inr rfl)
          · exact .inr ⟨h1, h2⟩
    · rw [if_neg hr]
      constructor
      · rintro (h | ⟨h1, h2⟩)
        · exact .inl h
        · exact .inr ⟨.inr h1, h2⟩
      · rintro (h | ⟨rfl | h1, h2⟩)
        · exact .inl h
        · exact absurd h2.1 hr
        · exact .inr ⟨h1, h2⟩

/-! ## Flood fill -/

/-- The positions of a grid of the given size. -/
def InR (nr nc : Nat) (q : Pos) : Prop := 0 ≤ q.1 ∧ q.1 < nr ∧ 0 ≤ q.2 ∧ q.2 < nc

/-- Every position of the rectangle, and no other, has a cell. -/
def Full {α : Type} (rows : List (List α)) (nr nc : Nat) : Prop := ∀ q, (cell rows q).isSome ↔ InR nr nc q

theorem mem_mapCells {rs : Int} {nr nc : Nat} {q : Pos} (h0 : 0 ≤ rs) : q ∈ mapCells rs nr nc ↔ InR nr nc q ∧ rs ≤ q.1 := by
  obtain ⟨r, c⟩ := q
  simp only [mapCells, List.mem_flatMap, List.mem_map, mem_pyRange, Prod.mk.injEq, InR]
  constructor
  · rintro ⟨r', h1, c', h2, rfl, rfl⟩; omega
  · rintro ⟨h1, h2⟩; exact ⟨r, by omega, c, by omega, rfl, rfl⟩

theorem mapCells_length (nr nc : Nat) : (mapCells 0 nr nc).length = nr * nc := by
  simp [mapCells, pyRange, List.length_flatMap, Function.comp_def]

theorem card_le {nr nc : Nat} {l : List Pos} (hn : l.Nodup) (h : ∀ q ∈ l, InR nr nc q) : l.length ≤ nr * nc := by
  rw [← mapCells_length nr nc]
  exact (List.subperm_of_subset hn (fun q hq => (mem_mapCells (le_refl _)).2 ⟨h q hq, (h q hq).1⟩)).length_le

/-- Reachable from `p` through neighbours with the letter `v`. -/
abbrev Reach (rows : List (List Char)) (v : Char) : Pos → Pos → Prop := Relation.ReflTransGen (fun s t => Adjacent s t ∧ cell rows t = some v)

structure FloodInv (rows0 : List (List Char)) (v : Char) (p0 : Pos) (R : List Pos) (st : Flood) : Prop where
  cells : ∀ q, cell st.rows q = if q ∈ st.group then some '.' else cell rows0 q
  group : ∀ q ∈ st.group, cell rows0 q = some v ∧ Reach rows0 v p0 q
  rem : ∀ q ∈ R, (cell rows0 q).isSome ∧ (cell rows0 q = some v → Reach rows0 v p0 q)
  new : ∀ q ∈ st.new, (cell rows0 q).isSome ∧ (cell rows0 q = some v → Reach rows0 v p0 q)
  front : ∀ s ∈ st.group, ∀ q, Adjacent s q → cell rows0 q = some v → q ∈ st.group ∨ q ∈ R ∨ q ∈ st.new
  start : p0 ∈ st.group ∨ p0 ∈ R ∨ p0 ∈ st.new
  nodup : st.group.Nodup
  val : cell rows0 p0 = some v

section
variable {rows0 : List (List Char)} {v : Char} {p0 : Pos} {nr nc : Nat}

theorem floodCell_inv (hf : Full rows0 nr nc) (hv : v ≠ '.') {p : Pos} {R : List Pos} {st : Flood} (hi : FloodInv rows0 v p0 (p :: R) st) :
    ∃ st', floodCell v nr nc p st = .ok st' ∧ FloodInv rows0 v p0 R st' ∧
      ((st'.group.length = st.group.length ∧ st'.new = st.new) ∨ st.group.length < st'.group.length) := by
  obtain ⟨hp, hreach⟩ := hi.rem p (by simp)
  have hsome : ∃ x, cell st.rows p = some x := by
    rw [hi.cells]
    split
    · exact ⟨_, rfl⟩
    · exact Option.isSome_iff_exists.1 hp
  obtain ⟨x, hx⟩ := hsome
  unfold floodCell
  rw [gridAt_ok hx]
  by_cases hxv : x = v
  · subst hxv
    have hpg : p ∉ st.group := by
      intro h
      rw [hi.cells, if_pos h] at hx
      exact hv (Option.some.inj hx).symm
    have hpv : cell rows0 p = some x := by rw [hi.cells, if_neg hpg] at hx; exact hx
    obtain ⟨rows', h1, h2, _⟩ := gridSet_ok hx '.'
    have hadd : setAdd st.group p = st.group ++ [p] := by simp [setAdd, hpg]
    refine ⟨⟨rows', setAdd st.group p, floodNeighbors nr nc p (setAdd st.group p) mapOffsets st.new⟩, ?_, ?_, ?_⟩
    · show (if x = x then _ else _) = _
      rw [if_pos rfl, h1]; rfl
    · constructor
      · intro q
        simp only [h2, mem_setAdd]
        by_cases hq : q = p
        · simp [hq]
        · simp [hq, hi.cells]
      · intro q hq
        rcases mem_setAdd.1 hq with hq | rfl
        · exact hi.group q hq
        · exact ⟨hpv, hreach hpv⟩
      · exact fun q hq => hi.rem q (by simp [hq])
      · intro q hq
        rcases (mem_floodNeighbors ..).1 hq with hq | ⟨ho, hr, _⟩
        · exact hi.new q hq
        · refine ⟨(hf q).2 hr, fun hqv => (hreach hpv).tail ⟨(adjacent_iff p q).2 ho, hqv⟩⟩
      · intro s hs q hadj hqv
        simp only [mem_setAdd, mem_floodNeighbors]
        rcases mem_setAdd.1 hs with hs | rfl
        · rcases hi.front s hs q hadj hqv with h | h | h
          · exact .inl (.inl h)
          · rcases List.mem_cons.1 h with rfl | h
            · exact .inl (.inr rfl)
            · exact .inr (.inl h)
          · exact .inr (.inr (.inl h))
        · by_cases hq : q ∈ setAdd st.group s
          · exact .inl (mem_setAdd.1 hq)
          · refine .inr (.inr (.inr ⟨(adjacent_iff s q).1 hadj, (hf q).1 (by simp [hqv]), fun h => hq (mem_setAdd.2 h)⟩))
      · simp only [mem_setAdd, mem_floodNeighbors]
        rcases hi.start with h | h | h
        · exact .inl (.inl h)
        · rcases List.mem_cons.1 h with h | h
          · exact .inl (.inr h)
          · exact .inr (.inl h)
        · exact .inr (.inr (.inl h))
      · simp only [hadd]
        exact List.nodup_append.2 ⟨hi.nodup, by simp, by intro a ha b hb; simp at hb; rintro rfl; exact hpg (hb ▸ ha)⟩
      · exact hi.val
    · right; simp [hadd]
  · refine ⟨st, ?_, ?_, .inl ⟨rfl, rfl⟩⟩
    · show (if x = v then _ else _) = _
      rw [if_neg hxv]; rfl
    · have hpg : cell rows0 p = some v → p ∈ st.group := by
        intro h
        by_contra hg
        rw [hi.cells, if_neg hg, h] at hx
        exact hxv (Option.some.inj hx).symm
      refine { hi with rem := fun q hq => hi.rem q (by simp [hq]), front := ?_, start := ?_ }
      · intro s hs q hadj hqv
        rcases hi.front s hs q hadj hqv with h | h | h
        · exact .inl h
        · rcases List.mem_cons.1 h with rfl | h
          · exact .inl (hpg hqv)
          · exact .inr (.inl h)
        · exact .inr (.inr h)
      · rcases hi.start with h | h | h
        · exact .inl h
        · rcases List.mem_cons.1 h with rfl | h
          · exact .inl (hpg hi.val)
          · exact .inr (.inl h)
        · exact .inr (.inr h)

theorem floodRound_inv (hf : Full rows0 nr nc) (hv : v ≠ '.') : ∀ (R : List Pos) (st : Flood), FloodInv rows0 v p0 R st →
    ∃ st', floodRound v nr nc R st = .ok st' ∧ FloodInv rows0 v p0 [] st' ∧
      ((st'.group.length = st.group.length ∧ st'.new = st.new) ∨ st.group.length < st'.group.length) := by
  intro R
  induction R with
  | nil => exact fun st hi => ⟨st, rfl, hi, .inl ⟨rfl, rfl⟩⟩
  | cons p R ih =>
    intro st hi
    obtain ⟨st1, h1, h2, h3⟩ := floodCell_inv hf hv hi
    obtain ⟨st2, h4, h5, h6⟩ := ih st1 h2
    refine ⟨st2, ?_, h5, ?_⟩
    · rw [floodRound, h1]; exact h4
    · rcases h3 with ⟨h3, h3'⟩ | h3 <;> rcases h6 with ⟨h6, h6'⟩ | h6
      · exact .inl ⟨h6.trans h3, h6'.trans h3'⟩
      all_goals (right; omega)

theorem flood_inv {ord : List Pos → List Pos} (ho : ∀ l, (ord l).Perm l) (hf : Full rows0 nr nc) (hv : v ≠ '.') :
    ∀ (fuel : Nat) (rows : List (List Char)) (group P : List Pos), FloodInv rows0 v p0 P ⟨rows, group, []⟩ → nr * nc < fuel + group.length →
    ∃ rows' S, flood ord v nr nc fuel rows group P = .ok (some (rows', S)) ∧ S.Nodup ∧ (∀ q, q ∈ S ↔ Reach rows0 v p0 q) ∧
      (∀ q, cell rows' q = if q ∈ S then some '.' else cell rows0 q) := by
  intro fuel
  induction fuel with
  | zero =>
    intro rows group P hi hn
    exfalso
    have := card_le (nr := nr) (nc := nc) hi.nodup (fun q hq => (hf q).1 (by rw [(hi.group q hq).1]; rfl))
    simp only at this
    omega
  | succ fuel ih =>
    intro rows group P hi hn
    unfold flood
    cases P with
    | nil =>
      refine ⟨rows, group, by simp, hi.nodup, ?_, hi.cells⟩
      intro q
      refine ⟨fun hq => (hi.group q hq).2, fun hq => ?_⟩
      induction hq with
      | refl => simpa using hi.start
      | tail _ hs ih => simpa using hi.front _ ih _ hs.1 hs.2
    | cons a P =>
      have hi' : FloodInv rows0 v p0 (ord (a :: P)) ⟨rows, group, []⟩ :=
        { hi with
          rem := fun q hq => hi.rem q ((ho _).mem_iff.1 hq)
          front := fun s hs q h1 h2 => by rw [(ho _).mem_iff]; exact hi.front s hs q h1 h2
          start := by rw [(ho _).mem_iff]; exact hi.start }
      obtain ⟨st, h1, h2, h3⟩ := floodRound_inv hf hv _ _ hi'
      simp only [List.isEmpty_cons, Bool.false_eq_true, if_false, h1]
      show ∃ rows' S, flood ord v nr nc fuel st.rows st.group st.new = _ ∧ _
      have hi2 : FloodInv rows0 v p0 st.new ⟨st.rows, st.group, []⟩ :=
        { cells := h2.cells, group := h2.group, rem := h2.new, new := by simp, nodup := h2.nodup, val := h2.val
          front := fun s hs q h4 h5 => by simpa using h2.front s hs q h4 h5
          start := by simpa using h2.start }
      rcases h3 with ⟨h3, h4⟩ | h3
      · simp only at h4
        rw [h4] at hi2 ⊢
        have hstop : flood ord v nr nc fuel st.rows st.group [] = .ok (some (st.rows, st.group)) := by unfold flood; rfl
        refine ⟨st.rows, st.group, hstop, hi2.nodup, ?_, hi2.cells⟩
        intro q
        refine ⟨fun hq => (hi2.group q hq).2, fun hq => ?_⟩
        induction hq with
        | refl => simpa using hi2.start
        | tail _ hs ih => simpa using hi2.front _ ih _ hs.1 hs.2
      · exact ih _ _ _ hi2 (by simp only at h3; omega)

end

theorem flood_ok {ord : List Pos → List Pos} (ho : ∀ l, (ord l).Perm l) {rows : List (List Char)} {v : Char} {p : Pos} {nr nc : Nat}
    (hf : Full rows nr nc) (hv : v ≠ '.') (hp : cell rows p = some v) :
    ∃ rows' S, flood ord v nr nc (nr * nc + 1) rows [] [p] = .ok (some (rows', S)) ∧ S.Nodup ∧ (∀ q, q ∈ S ↔ Reach rows v p q) ∧
      (∀ q, cell rows' q = if q ∈ S then some '.' else cell rows q) := by
  refine flood_inv ho hf hv _ _ _ _ ?_ (by simp)
  constructor <;> simp [hp, Relation.ReflTransGen.refl]

/-! ## All regions -/

theorem findCell_ok (rows : List (List Char)) : ∀ (ps : List Pos), (∀ p ∈ ps, (cell rows p).isSome) →
    (findCell rows ps = .ok none ∧ ∀ p ∈ ps, ∀ x, cell rows p = some x → Blank x) ∨
    ∃ pre p post x, ps = pre ++ p :: post ∧ findCell rows ps = .ok (some (p, x)) ∧ cell rows p = some x ∧ ¬ Blank x ∧
      ∀ q ∈ pre, ∀ y, cell rows q = some y → Blank y := by
  intro ps
  induction ps with
  | nil => intro _; exact .inl ⟨rfl, by simp⟩
  | cons a ps ih =>
    intro h
    obtain ⟨x, hx⟩ := Option.isSome_iff_exists.1 (h a (by simp))
    unfold findCell
    rw [gridAt_ok hx]
    by_cases hb : Blank x
    · have he : (if x ≠ ' ' ∧ x ≠ '.' then (pure (some (a, x)) : Res _) else findCell rows ps) = findCell rows ps := by
        rw [if_neg]; rintro ⟨h1, h2⟩; rcases hb with hb | hb <;> contradiction
      have he' : ((Except.ok x : Res Char) >>= fun x => if x ≠ ' ' ∧ x ≠ '.' then (pure (some (a, x)) : Res _) else findCell rows ps) = findCell rows ps := he
      rw [he']
      rcases ih (fun p hp => h p (by simp [hp])) with ⟨h1, h2⟩ | ⟨pre, p, post, y, h1, h2, h3, h4, h5⟩
      · refine .inl ⟨h1, ?_⟩
        intro p hp y hy
        rcases List.mem_cons.1 hp with rfl | hp
        · rw [hx] at hy; cases hy; exact hb
        · exact h2 p hp y hy
      · refine .inr ⟨a :: pre, p, post, y, by simp [h1], h2, h3, h4, ?_⟩
        intro q hq z hz
        rcases List.mem_cons.1 hq with rfl | hq
        · rw [hx] at hz; cases hz; exact hb
        · exact h5 q hq z hz
    · refine .inr ⟨[], a, ps, x, rfl, ?_, hx, hb, by simp⟩
      show (if x ≠ ' ' ∧ x ≠ '.' then (pure (some (a, x)) : Res _) else findCell rows ps) = _
      rw [if_pos ⟨fun h => hb (.inl h), fun h => hb (.inr h)⟩]; rfl

theorem mapCells_sorted (rs : Int) (nr nc : Nat) : (mapCells rs nr nc).Pairwise (fun a b => a.1 ≤ b.1) := by
  unfold mapCells
  rw [List.pairwise_flatMap]
  constructor
  · intro r _
    rw [List.pairwise_map]
    exact List.pairwise_of_forall (by simp)
  · have : (pyRange rs nr).Pairwise (fun a b => a ≤ b) := by
      unfold pyRange
      rw [List.pairwise_map]
      exact List.pairwise_lt_range.imp (by intro a b h; simp only [Int.ofNat_eq_natCast]; omega)
    refine this.imp ?_
    intro a b hab x hx y hy
    simp only [List.mem_map] at hx hy
    obtain ⟨_, _, rfl⟩ := hx
    obtain ⟨_, _, rfl⟩ := hy
    exact hab

/-- The groups are whole regions, each once. -/
structure Groups (rows0 : List (List Char)) (groups : List (List Pos)) : Prop where
  region : ∀ G ∈ groups, ∃ p v, ¬ Blank v ∧ cell rows0 p = some v ∧ ∀ q, q ∈ G ↔ Reach rows0 v p q
  disj : groups.Pairwise (fun G G' => ∀ q ∈ G, q ∉ G')
  nodup : ∀ G ∈ groups, G.Nodup

theorem Reach.val {rows : List (List Char)} {v : Char} {p q : Pos} (h : Reach rows v p q) (hp : cell rows p = some v) : cell rows q = some v := by
  cases h with
  | refl => exact hp
  | tail _ h => exact h.2

theorem Reach.weaken {rows rows' : List (List Char)} {v : Char} {p q : Pos} (h : Reach rows v p q)
    (hc : ∀ q, cell rows q = some v → cell rows' q = some v) : Reach rows' v p q := by
  induction h with
  | refl => exact .refl
  | tail _ h ih => exact ih.tail ⟨h.1, hc _ h.2⟩

theorem Groups.length_le {rows0 : List (List Char)} {groups : List (List Pos)} {nr nc : Nat} (h : Groups rows0 groups) (hf : Full rows0 nr nc) :
    groups.length ≤ nr * nc := by
  have h1 : groups.flatten.length ≤ nr * nc := by
    apply card_le
    · rw [List.nodup_flatten]
      exact ⟨h.nodup, h.disj.imp (fun h q hq hq' => h q hq hq')⟩
    · intro q hq
      obtain ⟨G, hG, hq⟩ := List.mem_flatten.1 hq
      obtain ⟨p, v, _, hp, hr⟩ := h.region G hG
      exact (hf q).1 (by rw [((hr q).1 hq).val hp]; rfl)
  have h2 : groups.length ≤ groups.flatten.length := by
    rw [List.length_flatten]
    have : ∀ (l : List (List Pos)), (∀ G ∈ l, G ≠ []) → l.length ≤ (l.map List.length).sum := by
      intro l
      induction l with
      | nil => simp
      | cons a l ih =>
        intro h
        have h1 := ih (fun G hG => h G (by simp [hG]))
        have h2 : 0 < a.length := List.length_pos_iff.2 (h a (by simp))
        simp only [List.length_cons, List.map_cons, List.sum_cons]
        omega
    apply this
    rintro G hG rfl
    obtain ⟨p, v, _, _, hr⟩ := h.region _ hG
    exact absurd ((hr p).2 .refl) (by simp)
  omega

theorem mapGroups_ok {ord : List Pos → List Pos} (ho : ∀ l, (ord l).Perm l) {rows0 : List (List Char)} {nr nc : Nat} (hf : Full rows0 nr nc) :
    ∀ (fuel : Nat) (rs : Int) (rows : List (List Char)) (groups : List (List Pos)), 0 ≤ rs → Groups rows0 groups →
    (∀ q, cell rows q = if q ∈ groups.flatten then some '.' else cell rows0 q) →
    (∀ q x, q.1 < rs → cell rows q = some x → Blank x) → nr * nc < fuel + groups.length →
    ∃ groups', mapGroups ord nr nc fuel rs rows groups = .ok (some groups') ∧ Groups rows0 groups' ∧
      ∀ q x, cell rows0 q = some x → ¬ Blank x → ∃ G ∈ groups', q ∈ G := by
  intro fuel
  induction fuel with
  | zero =>
    intro rs rows groups _ hg _ _ hn
    have := hg.length_le hf
    omega
  | succ fuel ih =>
    intro rs rows groups hrs hg hc he hn
    have hf' : Full rows nr nc := by
      intro q
      rw [hc]
      split
      · rename_i hq
        obtain ⟨G, hG, hq⟩ := List.mem_flatten.1 hq
        obtain ⟨p, v, _, hp, hr⟩ := hg.region G hG
        simp only [Option.isSome_some, true_iff]
        exact (hf q).1 (by rw [((hr q).1 hq).val hp]; rfl)
      · exact hf q
    unfold mapGroups
    rcases findCell_ok rows (mapCells rs nr nc) (fun p hp => (hf' p).2 ((mem_mapCells hrs).1 hp).1) with ⟨h1, h2⟩ | ⟨pre, p, post, x, h1, h2, h3, h4, h5⟩
    · refine ⟨groups, by rw [h1]; rfl, hg, ?_⟩
      intro q x hq hx
      by_contra hno
      have hq' : cell rows q = some x := by
        rw [hc, if_neg]
        · exact hq
        · intro h; obtain ⟨G, hG⟩ := List.mem_flatten.1 h; exact hno ⟨G, hG⟩
      by_cases hqr : q.1 < rs
      · exact hx (he q x hqr hq')
      · exact hx (h2 q ((mem_mapCells hrs).2 ⟨(hf' q).1 (by rw [hq']; rfl), by omega⟩) x hq')
    · have hx' : x ≠ '.' := fun h => h4 (.inr h)
      obtain ⟨rows', S, h6, h7, h8, h9⟩ := flood_ok ho hf' hx' h3
      rw [h2]
      show ∃ groups', (do
        match ← flood ord x nr nc (nr * nc + 1) rows [] [p] with
        | none => return none
        | some (rows, group) => mapGroups ord nr nc fuel p.1 rows (groups ++ [group])) = _ ∧ _
      rw [h6]
      show ∃ groups', mapGroups ord nr nc fuel p.1 rows' (groups ++ [S]) = _ ∧ _
      have hpf : p ∉ groups.flatten := by
        intro h
        rw [hc, if_pos h] at h3
        exact hx' (Option.some.inj h3).symm
      have hp0 : cell rows0 p = some x := by rw [hc, if_neg hpf] at h3; exact h3
      -- reachability in the current rows is reachability in the original ones
      have hv0 : ∀ q, cell rows q = some x → q ∉ groups.flatten ∧ cell rows0 q = some x := by
        intro q hq
        rw [hc] at hq
        split at hq
        · exact absurd (Option.some.inj hq).symm hx'
        · exact ⟨‹_›, hq⟩
      have hreach : ∀ q, Reach rows x p q ↔ Reach rows0 x p q := by
        intro q
        constructor
        · intro h
          exact h.weaken (fun b hb => (hv0 b hb).2)
        · intro h
          suffices Reach rows x p q ∧ q ∉ groups.flatten from this.1
          induction h with
          | refl => exact ⟨.refl, hpf⟩
          | @tail a b hpa hab ih =>
            have hb : b ∉ groups.flatten := by
              intro hb
              obtain ⟨G, hG, hb⟩ := List.mem_flatten.1 hb
              obtain ⟨p', v', _, hp', hr'⟩ := hg.region G hG
              have hbr := (hr' b).1 hb
              have hv' : v' = x := by have := hbr.val hp'; rw [hab.2] at this; exact (Option.some.inj this).symm
              subst hv'
              refine ih.2 (List.mem_flatten.2 ⟨G, hG, (hr' a).2 (hbr.tail ⟨hab.1.symm, ?_⟩)⟩)
              exact Reach.val hpa hp0
            refine ⟨ih.1.tail ⟨hab.1, ?_⟩, hb⟩
            rw [hc, if_neg hb]; exact hab.2
      refine ih p.1 rows' (groups ++ [S]) ?_ ?_ ?_ ?_ (by simp; omega)
      · exact ((hf' p).1 (by rw [h3]; rfl)).1
      · constructor
        · intro G hG
          rcases List.mem_append.1 hG with hG | hG
          · exact hg.region G hG
          · rw [List.mem_singleton] at hG
            subst hG
            exact ⟨p, x, h4, hp0, fun q => (h8 q).trans (hreach q)⟩
        · rw [List.pairwise_append]
          refine ⟨hg.disj, by simp, ?_⟩
          intro G hG G' hG' q hq hq'
          rw [List.mem_singleton] at hG'
          subst hG'
          have hqx : cell rows q = some x := ((h8 q).1 hq').val h3
          exact (hv0 q hqx).1 (List.mem_flatten.2 ⟨G, hG, hq⟩)
        · intro G hG
          rcases List.mem_append.1 hG with hG | hG
          · exact hg.nodup G hG
          · rw [List.mem_singleton] at hG
            subst hG; exact h7
      · intro q
        rw [h9, hc]
        simp only [List.flatten_append, List.mem_append, List.flatten_singleton]
        by_cases hq : q ∈ S <;> by_cases hq' : q ∈ groups.flatten <;> simp only [hq, hq', or_true, or_false, if_true, if_false]
      · intro q y hq hy
        rw [h9] at hy
        split at hy
        · cases hy; exact .inr rfl
        · by_cases hqr : q.1 < rs
          · exact he q y hqr hy
          · have hm : q ∈ mapCells rs nr nc := (mem_mapCells hrs).2 ⟨(hf' q).1 (by rw [hy]; rfl), by omega⟩
            have hs := mapCells_sorted rs nr nc
            rw [h1] at hm hs
            rcases List.mem_append.1 hm with hm | hm
            · exact h5 q hm y hy
            · exfalso
              rcases List.mem_cons.1 hm with rfl | hm
              · omega
              · have := (List.pairwise_cons.1 (List.pairwise_append.1 hs).2.1).1 q hm
                omega


/-! ## The padded map -/

/-- The rows that the code works on. -/
def padded (map : List (List Char)) : List (List Char) :=
  map.map (fun row => row ++ List.replicate (maxLength map - row.length) ' ')

theorem padded_full (map : List (List Char)) : Full (padded map) map.length (maxLength map) := by
  intro q
  unfold InR cell
  split
  · rename_i hq
    obtain ⟨r, c⟩ := q
    obtain ⟨r, rfl⟩ := Int.eq_ofNat_of_zero_le hq.1
    obtain ⟨c, rfl⟩ := Int.eq_ofNat_of_zero_le hq.2
    simp only [Int.toNat_natCast, padded, List.getElem?_map]
    by_cases hr : r < map.length
    · have := maxLength_le map map[r] (List.getElem_mem _)
      simp only [List.getElem?_eq_getElem hr, Option.map_some, Option.bind_some]
      have hl : (map[r] ++ List.replicate (maxLength map - map[r].length) ' ').length = maxLength map := by simp; omega
      generalize map[r] ++ List.replicate (maxLength map - map[r].length) ' ' = row at hl
      by_cases hc : c < row.length
      · rw [List.getElem?_eq_getElem hc]; simp; omega
      · rw [List.getElem?_eq_none (by omega)]; simp; omega
    · rw [List.getElem?_eq_none (by omega)]
      simp
      omega
  · rename_i hq
    simp only [Option.isSome_none, Bool.false_eq_true, false_iff]
    intro h; exact hq ⟨h.1, h.2.2.1⟩

/-- Padding adds blanks only. -/
theorem padded_cell (map : List (List Char)) (q : Pos) (x : Char) (hx : ¬ Blank x) : cell (padded map) q = some x ↔ cell map q = some x := by
  unfold cell
  split
  · simp only [padded, List.getElem?_map]
    cases hm : map[q.1.toNat]? with
    | none => simp
    | some row =>
      simp only [Option.map_some, Option.bind_some]
      rw [List.getElem?_append]
      split
      · exact Iff.rfl
      · rename_i h
        rw [List.getElem?_eq_none (l := row) (by omega)]
        simp only [List.getElem?_replicate, reduceCtorEq, iff_false]
        split
        · intro h; cases h; exact hx (.inl rfl)
        · simp
  · exact Iff.rfl

theorem reach_padded {map : List (List Char)} {v : Char} (hv : ¬ Blank v) (p q : Pos) : Reach (padded map) v p q ↔ Reach map v p q := by
  constructor
  · exact fun h => h.weaken (fun b => (padded_cell map b v hv).1)
  · exact fun h => h.weaken (fun b => (padded_cell map b v hv).2)

/-- The groups are the regions of the map. -/
structure Regions (map : List (List Char)) (groups : List (List Pos)) : Prop where
  region : ∀ G ∈ groups, ∃ p x, ¬ Blank x ∧ cell map p = some x ∧ ∀ q, q ∈ G ↔ Reach map x p q
  disj : groups.Pairwise (fun G G' => ∀ q ∈ G, q ∉ G')
  all : ∀ q x, cell map q = some x → ¬ Blank x → ∃ G ∈ groups, q ∈ G

theorem mapRegions_ok {ord : List Pos → List Pos} (ho : ∀ l, (ord l).Perm l) {map : List (List Char)} (hne : map ≠ []) :
    ∃ groups, mapRegions ord map = .ok (some groups) ∧ Regions map groups := by
  obtain ⟨groups, h1, h2, h3⟩ := mapGroups_ok ho (padded_full map) (map.length * maxLength map + 1) 0 (padded map) [] (le_refl _)
    ⟨by simp, by simp, by simp⟩ (by simp) (by
      intro q x hq hx
      have := (padded_full map q).1 (by rw [hx]; rfl)
      have := this.1
      omega) (by simp)
  refine ⟨groups, ?_, ?_, h2.disj, ?_⟩
  · unfold mapRegions
    rw [if_neg (by simpa using hne)]
    exact h1
  · intro G hG
    obtain ⟨p, v, hv, hp, hq⟩ := h2.region G hG
    exact ⟨p, v, hv, (padded_cell map p v hv).1 hp, fun q => (hq q).trans (reach_padded hv p q)⟩
  · intro q x hq hx
    exact h3 q x ((padded_cell map q x hx).2 hq) hx

/-! ## Facts on regions -/

section
variable {map : List (List Char)} {groups : List (List Pos)}

theorem Reach.symm {v : Char} {p q : Pos} (h : Reach map v p q) (hp : cell map p = some v) : Reach map v q p := by
  induction h with
  | refl => exact .refl
  | @tail a b hpa hab ih => exact .head ⟨hab.1.symm, Reach.val hpa hp⟩ ih

/-- Positions in groups have letters. -/
theorem Regions.letter (hg : Regions map groups) {G : List Pos} (hG : G ∈ groups) {p : Pos} (hp : p ∈ G) :
    ∃ x, cell map p = some x ∧ ¬ Blank x := by
  obtain ⟨p', x, hx, hp', hr⟩ := hg.region G hG
  exact ⟨x, ((hr p).1 hp).val hp', hx⟩

theorem Regions.index (hg : Regions map groups) {i j : Nat} {G G' : List Pos} (hG : groups[i]? = some G) (hG' : groups[j]? = some G') {p : Pos}
    (h : p ∈ G) (h' : p ∈ G') : i = j := by
  obtain ⟨hi, rfl⟩ := List.getElem?_eq_some_iff.1 hG
  obtain ⟨hj, rfl⟩ := List.getElem?_eq_some_iff.1 hG'
  have := List.pairwise_iff_getElem.1 hg.disj
  by_contra hne
  rcases Nat.lt_or_gt_of_ne hne with hlt | hlt
  · exact this i j hi hj hlt p h h'
  · exact this j i hj hi hlt p h' h

/-- Neighbours with the same letter belong to the same group. -/
theorem Regions.closed (hg : Regions map groups) {G : List Pos} (hG : G ∈ groups) {p q : Pos} {x : Char} (hp : p ∈ G) (ha : Adjacent p q)
    (hpx : cell map p = some x) (hqx : cell map q = some x) : q ∈ G := by
  obtain ⟨p', y, hy, hp', hr⟩ := hg.region G hG
  have h1 := (hr p).1 hp
  have : y = x := by have := h1.val hp'; rw [hpx] at this; exact (Option.some.inj this).symm
  subst this
  exact (hr q).2 (h1.tail ⟨ha, hqx⟩)

/-- Two positions of one group belong to one region. -/
theorem Regions.connected (hg : Regions map groups) {G : List Pos} (hG : G ∈ groups) {p q : Pos} (hp : p ∈ G) :
    q ∈ G ↔ Region map p q := by
  obtain ⟨p', y, hy, hp', hr⟩ := hg.region G hG
  have h1 := (hr p).1 hp
  constructor
  · intro hq
    exact ⟨y, hy, h1.val hp', (h1.symm hp').trans ((hr q).1 hq)⟩
  · rintro ⟨x, _, hx, hpq⟩
    have : y = x := by have := h1.val hp'; rw [hx] at this; exact (Option.some.inj this).symm
    subst this
    exact (hr q).2 (h1.trans hpq)

/-- The number of the group of a position. -/
def groupNum (groups : List (List Pos)) (p : Pos) : Nat := groups.findIdx (fun G => decide (p ∈ G))

theorem Regions.num (hg : Regions map groups) {i : Nat} {G : List Pos} (hG : groups[i]? = some G) {p : Pos} (hp : p ∈ G) : groupNum groups p = i := by
  obtain ⟨hi, he⟩ := List.getElem?_eq_some_iff.1 hG
  have hlt : groupNum groups p < groups.length := List.findIdx_lt_length_of_exists ⟨G, he ▸ List.getElem_mem _, by simpa using hp⟩
  have hm : p ∈ groups[groupNum groups p] := by
    have := List.findIdx_getElem (xs := groups) (p := fun G => decide (p ∈ G)) (w := hlt)
    exact of_decide_eq_true this
  exact hg.index (List.getElem?_eq_getElem hlt) hG hm hp

theorem Regions.at (hg : Regions map groups) {p : Pos} {x : Char} (hp : cell map p = some x) (hx : ¬ Blank x) :
    ∃ (i : Nat) (G : List Pos), groups[i]? = some G ∧ p ∈ G := by
  obtain ⟨G, hG, h⟩ := hg.all p x hp hx
  obtain ⟨i, hi, he⟩ := List.getElem_of_mem hG
  exact ⟨i, G, by rw [List.getElem?_eq_getElem hi, he], h⟩

theorem Regions.nonempty (hg : Regions map groups) {i : Nat} (hi : i < groups.length) : ∃ p, p ∈ groups[i] := by
  obtain ⟨p, _, _, _, hr⟩ := hg.region _ (List.getElem_mem hi)
  exact ⟨p, (hr p).2 .refl⟩

theorem Regions.numbering (hg : Regions map groups) : Numbering map (groupNum groups) := by
  constructor
  · intro p q x y hp hq hx hy
    obtain ⟨i, G, hG, hpG⟩ := hg.at hp hx
    obtain ⟨j, G', hG', hqG'⟩ := hg.at hq hy
    rw [hg.num hG hpG, hg.num hG' hqG', ← hg.connected (List.mem_of_getElem? hG) hpG]
    constructor
    · rintro rfl; rw [hG] at hG'; cases hG'; exact hqG'
    · intro h; exact hg.index hG hG' h hqG'
  · intro p x hp hx k hk
    obtain ⟨i, G, hG, hpG⟩ := hg.at hp hx
    rw [hg.num hG hpG] at hk
    have hi : i < groups.length := (List.getElem?_eq_some_iff.1 hG).1
    have hk' : k < groups.length := by omega
    obtain ⟨q, hq⟩ := hg.nonempty hk'
    obtain ⟨y, hy, hyb⟩ := hg.letter (List.getElem_mem hk') hq
    exact ⟨q, y, hy, hyb, hg.num (List.getElem?_eq_getElem hk') hq⟩

end

/-! ## The edges -/

theorem mem_mapNeighbors {G : List Pos} {q : Pos} : q ∈ mapNeighbors G ↔ ∃ p ∈ G, Adjacent p q := by
  simp only [mapNeighbors, List.mem_flatMap, List.mem_map, adjacent_iff]
  constructor
  · rintro ⟨p, hp, o, ho, rfl⟩; exact ⟨p, hp, o, ho, rfl⟩
  · rintro ⟨p, hp, o, ho, rfl⟩; exact ⟨p, hp, o, ho, rfl⟩

theorem mem_mapEdgesFrom (g0 : Nat) (nb : List Pos) (e : Nat × Nat) : ∀ (groups : List (List Pos)) (g1 : Nat),
    e ∈ mapEdgesFrom g0 nb g1 groups ↔ ∃ k G, groups[k]? = some G ∧ e = (g0, g1 + k) ∧ ∃ p ∈ G, p ∈ nb := by
  intro groups
  induction groups with
  | nil => intro g1; simp [mapEdgesFrom]
  | cons A groups ih =>
    intro g1
    have hsplit : (∃ k G, (A :: groups)[k]? = some G ∧ e = (g0, g1 + k) ∧ ∃ p ∈ G, p ∈ nb) ↔
        (e = (g0, g1) ∧ ∃ p ∈ A, p ∈ nb) ∨ ∃ k G, groups[k]? = some G ∧ e = (g0, g1 + 1 + k) ∧ ∃ p ∈ G, p ∈ nb := by
      constructor
      · rintro ⟨k, G, hk, he, hp⟩
        cases k with
        | zero => simp at hk; subst hk; exact .inl ⟨by simpa using he, hp⟩
        | succ k => exact .inr ⟨k, G, by simpa using hk, by rw [he]; congr 1; omega, hp⟩
      · rintro (⟨he, hp⟩ | ⟨k, G, hk, he, hp⟩)
        · exact ⟨0, A, rfl, by simpa using he, hp⟩
        · exact ⟨k + 1, G, by simpa using hk, by rw [he]; congr 1; omega, hp⟩
    rw [hsplit, mapEdgesFrom, ← ih]
    by_cases h : ∃ p ∈ A, p ∈ nb
    · rw [if_pos (by simpa [List.any_eq_true] using h)]
      simp [h]
    · rw [if_neg (by simpa [List.any_eq_true] using h)]
      simp [h]

theorem mem_mapEdges (e : Nat × Nat) : ∀ (groups : List (List Pos)) (g0 : Nat),
    e ∈ mapEdges g0 groups ↔ ∃ i j G G', groups[i]? = some G ∧ groups[j]? = some G' ∧ i < j ∧ e = (g0 + i, g0 + j) ∧
      ∃ p ∈ G, ∃ q ∈ G', Adjacent p q := by
  intro groups
  induction groups with
  | nil => intro g0; simp [mapEdges]
  | cons A groups ih =>
    intro g0
    rw [mapEdges, List.mem_append, mem_mapEdgesFrom, ih]
    constructor
    · rintro (⟨k, G, hk, he, q, hq, hn⟩ | ⟨i, j, G, G', hi, hj, hij, he, hpq⟩)
      · obtain ⟨p, hp, ha⟩ := mem_mapNeighbors.1 hn
        exact ⟨0, k + 1, A, G, rfl, by simpa using hk, by omega, by rw [he]; congr 1; omega, p, hp, q, hq, ha⟩
      · exact ⟨i + 1, j + 1, G, G', by simpa using hi, by simpa using hj, by omega, by rw [he]; congr 1 <;> omega, hpq⟩
    · rintro ⟨i, j, G, G', hi, hj, hij, he, p, hp, q, hq, ha⟩
      cases j with
      | zero => omega
      | succ j =>
        cases i with
        | zero =>
          simp at hi; subst hi
          exact .inl ⟨j, G', by simpa using hj, by rw [he]; congr 1; omega, q, hq, mem_mapNeighbors.2 ⟨p, hp, ha⟩⟩
        | succ i =>
          exact .inr ⟨i, j, G, G', by simpa using hi, by simpa using hj, by omega, by rw [he]; congr 1 <;> omega, p, hp, q, hq, ha⟩

/-! ## Painting -/

section
variable {β : Type}

theorem paintGroup_ok (value : Char × β) : ∀ (ps : List Pos) (out : List (List (Option (Char × β)))), (∀ p ∈ ps, (cell out p).isSome) →
    ∃ out', paintGroup value ps out = .ok out' ∧ (∀ q, cell out' q = if q ∈ ps then some (some value) else cell out q) ∧
      out'.map List.length = out.map List.length := by
  intro ps
  induction ps with
  | nil => intro out _; exact ⟨out, rfl, by simp, rfl⟩
  | cons p ps ih =>
    intro out h
    obtain ⟨x, hx⟩ := Option.isSome_iff_exists.1 (h p (by simp))
    obtain ⟨o1, h1, h2, h3⟩ := gridSet_ok hx (some value)
    obtain ⟨o2, h4, h5, h6⟩ := ih o1 (fun q hq => by rw [h2]; split; · rfl
                                                     · exact h q (by simp [hq]))
    refine ⟨o2, ?_, ?_, h6.trans h3⟩
    · rw [paintGroup, h1]; exact h4
    · intro q
      rw [h5, h2]
      by_cases hq : q = p
      · simp [hq]
      · simp [hq]

theorem glabel_ok (k : Nat) : ∃ l, glabels[k % 36]? = some l ∧ listAt glabels ((k : Int) % (glabels.length : Int)) = .ok l := by
  have hlen : glabels.length = 36 := by decide
  have hlt : k % 36 < glabels.length := by rw [hlen]; omega
  refine ⟨glabels[k % 36], List.getElem?_eq_getElem hlt, ?_⟩
  have : ((k : Int) % (glabels.length : Int)) = ((k % 36 : Nat) : Int) := by rw [hlen]; simp
  rw [this]
  exact listAt_nat hlt

theorem paintGroups_ok {ord : List Pos → List Pos} (ho : ∀ l, (ord l).Perm l) (solution : List (Nat × β)) : ∀ (groups : List (List Pos))
    (gid : Nat) (out : List (List (Option (Char × β)))), groups.Pairwise (fun G G' => ∀ q ∈ G, q ∉ G') →
    (∀ i < groups.length, (aget solution (gid + i)).isSome) → (∀ G ∈ groups, ∀ p ∈ G, (cell out p).isSome) →
    ∃ out', paintGroups ord solution gid groups out = .ok out' ∧ out'.map List.length = out.map List.length ∧
      (∀ i G q, groups[i]? = some G → q ∈ G → ∃ l c, glabels[(gid + i) % 36]? = some l ∧ aget solution (gid + i) = some c ∧
        cell out' q = some (some (l, c))) ∧
      (∀ q, (∀ G ∈ groups, q ∉ G) → cell out' q = cell out q) := by
  intro groups
  induction groups with
  | nil => intro gid out _ _ _; exact ⟨out, rfl, rfl, by simp, by simp⟩
  | cons A groups ih =>
    intro gid out hd hsol hcell
    obtain ⟨hA, hd⟩ := List.pairwise_cons.1 hd
    obtain ⟨c, hc⟩ := Option.isSome_iff_exists.1 (hsol 0 (by simp))
    rw [Nat.add_zero] at hc
    obtain ⟨l, hl1, hl2⟩ := glabel_ok gid
    obtain ⟨o1, h1, h2, h3⟩ := paintGroup_ok (l, c) (ord A) out (fun p hp => hcell A (by simp) p ((ho _).mem_iff.1 hp))
    obtain ⟨o2, h4, h5, h6, h7⟩ := ih (gid + 1) o1 hd (fun i hi => by
        have := hsol (i + 1) (by simpa using hi)
        rwa [show gid + 1 + i = gid + (i + 1) by omega])
      (fun G hG p hp => by rw [h2]; split; · rfl
                           · exact hcell G (by simp [hG]) p hp)
    refine ⟨o2, ?_, h5.trans h3, ?_, ?_⟩
    · rw [paintGroups, show aat solution gid = .ok c by unfold aat; rw [hc], ok_bind, hl2, ok_bind, h1]
      exact h4
    · intro i G q hi hq
      cases i with
      | zero =>
        simp at hi; subst hi
        refine ⟨l, c, by simpa using hl1, by simpa using hc, ?_⟩
        rw [h7 q (fun G hG => hA G hG q hq), h2, if_pos ((ho _).mem_iff.2 hq)]
      | succ i =>
        have := h6 i G q (by simpa using hi) hq
        rwa [show gid + 1 + i = gid + (i + 1) by omega] at this
    · intro q hq
      rw [h7 q (fun G hG => hq G (by simp [hG])), h2, if_neg]
      intro h; exact hq A (by simp) ((ho _).mem_iff.1 h)

end

/-! ## Puzzles in two stages -/

theorem Res.each_forall {α β : Type} {f : α → Res β} {l : List α} {L : List β} : Res.each f l = .ok L ↔ List.Forall₂ (fun x y => f x = .ok y) l L := by
  induction l generalizing L with
  | nil =>
    rw [List.forall₂_nil_left_iff]
    simp only [Res.each, Except.ok.injEq]
    exact eq_comm
  | cons x l ih =>
    rw [List.forall₂_cons_left_iff]
    simp only [Res.each]
    constructor
    · intro h
      obtain ⟨y, hy, h⟩ := bind_eq_ok.1 h
      obtain ⟨ys, hys, h⟩ := bind_eq_ok.1 h
      cases h
      exact ⟨y, ys, hy, ih.1 hys, rfl⟩
    · rintro ⟨y, ys, hy, hys, rfl⟩
      rw [hy, ih.2 hys]; rfl

theorem Res.each_comp {α β γ : Type} {f : α → Res β} {g : β → Res γ} {l : List α} {L : List β} (h : Res.each f l = .ok L) :
    Res.each (fun x => f x >>= g) l = Res.each g L := by
  induction l generalizing L with
  | nil => cases h; rfl
  | cons x l ih =>
    simp only [Res.each] at h ⊢
    obtain ⟨y, hy, h⟩ := bind_eq_ok.1 h
    obtain ⟨ys, hys, h⟩ := bind_eq_ok.1 h
    cases h
    rw [hy, ok_bind, ih hys]; rfl

/-- Decoding in two stages, the second one a bijection between the valid results. -/
theorem PuzzleRun.comp {β γ : Type} {a : SolveArgs} {w : World} {dec : Subst → Res β} {V : β → Prop} (h : PuzzleRun a (puzzleRun a w dec) V)
    {g : β → Res γ} {W : γ → Prop} (h1 : ∀ x, V x → ∃ y, g x = .ok y ∧ W y) (h2 : ∀ y, W y → ∃ x, V x ∧ g x = .ok y)
    (h3 : ∀ x x' y, V x → V x' → g x = .ok y → g x' = .ok y → x = x') :
    PuzzleRun a (puzzleRun a w (fun σ => dec σ >>= g)) W := by
  have step : ∀ n L, (puzzleRun a w dec n).1 = .ok L → (∀ x ∈ L, V x) → ∃ L', (puzzleRun a w (fun σ => dec σ >>= g) n).1 = .ok L' ∧
      List.Forall₂ (fun x y => g x = .ok y) L L' := by
    intro n L hL hV
    have : ∃ L', Res.each g L = .ok L' := Res.each_ok_iff.2 (fun x hx => (h1 x (hV x hx)).imp fun _ h => h.1)
    obtain ⟨L', hL'⟩ := this
    exact ⟨L', by unfold puzzleRun at hL ⊢; rw [← hL']; exact Res.each_comp hL, Res.each_forall.1 hL'⟩
  have valid : ∀ L L', List.Forall₂ (fun x y => g x = .ok y) L L' → (∀ x ∈ L, V x) → ∀ y ∈ L', ∃ x ∈ L, g x = .ok y := by
    intro L L' hf hV y hy
    obtain ⟨i, hi, rfl⟩ := List.getElem_of_mem hy
    have hlen := hf.length_eq
    exact ⟨L[i]'(by omega), List.getElem_mem _, hf.get (by omega) hi⟩
  have back : ∀ L L', List.Forall₂ (fun x y => g x = .ok y) L L' → ∀ x ∈ L, ∃ y ∈ L', g x = .ok y := by
    intro L L' hf x hx
    obtain ⟨i, hi, rfl⟩ := List.getElem_of_mem hx
    have hlen := hf.length_eq
    exact ⟨L'[i]'(by omega), List.getElem_mem _, hf.get hi (by omega)⟩
  refine ⟨⟨?_, ?_⟩, ?_⟩
  · intro n
    obtain ⟨L, hL, hV⟩ := h.sound n
    obtain ⟨L', hL', hf⟩ := step n L hL hV
    refine ⟨L', hL', fun y hy => ?_⟩
    obtain ⟨x, hx, hxy⟩ := valid L L' hf hV y hy
    obtain ⟨y', hy', hW⟩ := h1 x (hV x hx)
    rw [hxy] at hy'; cases hy'; exact hW
  · obtain ⟨N, hN⟩ := h.complete
    refine ⟨N, fun n hn => ?_⟩
    obtain ⟨L, hL, hph, hrest⟩ := hN n hn
    obtain ⟨L0, hL0, hV⟩ := h.sound n
    rw [hL] at hL0; cases hL0
    obtain ⟨L', hL', hf⟩ := step n L hL hV
    refine ⟨L', hL', hph, ?_⟩
    rcases hrest with ⟨hi, hall⟩ | ⟨hi, l, hl, hlen⟩ | hi
    · refine .inl ⟨hi, fun y => ⟨fun hy => ?_, fun hy => ?_⟩⟩
      · obtain ⟨x, hx, hxy⟩ := valid L L' hf hV y hy
        obtain ⟨y', hy', hW⟩ := h1 x (hV x hx)
        rw [hxy] at hy'; cases hy'; exact hW
      · obtain ⟨x, hx, hxy⟩ := h2 y hy
        obtain ⟨y', hy', hxy'⟩ := back L L' hf x ((hall x).2 hx)
        rw [hxy] at hxy'; cases hxy'; exact hy'
    · exact .inr (.inl ⟨hi, l, hl, hf.length_eq ▸ hlen⟩)
    · exact .inr (.inr hi)
  · intro n L' hL'
    obtain ⟨L, hL, hV⟩ := h.sound n
    obtain ⟨L'', hL'', hf⟩ := step n L hL hV
    rw [hL'] at hL''; cases hL''
    have hnd := h.once n L hL
    rw [List.nodup_iff_injective_getElem] at hnd ⊢
    intro i j hij
    have hlen := hf.length_eq
    have hi := hf.get (i := i) (by omega) i.2
    have hj := hf.get (i := j) (by omega) j.2
    simp only [List.get_eq_getElem] at hi hj
    simp only at hij
    rw [← hij] at hj
    have := h3 _ _ _ (hV _ (List.getElem_mem _)) (hV _ (List.getElem_mem _)) hi hj
    have := @hnd ⟨i, by omega⟩ ⟨j, by omega⟩ this
    simpa [Fin.ext_iff] using this

end Satisfy
