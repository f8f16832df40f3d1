import Verif.Lemmas.Map
import Verif.Props.Graph
/-!
# Map colouring: C42

Solver settings, the rest of the heap and the iteration order of sets (`ord`) are arbitrary.
-/

namespace Satisfy.Props
open Satisfy

section
variable {α β : Type} [DecidableEq α]

theorem aget_of_mem {L : List (α × β)} (hn : (L.map Prod.fst).Nodup) {x : α} {y : β} (h : (x, y) ∈ L) : aget L x = some y := by
  induction L with
  | nil => simp at h
  | cons p L ih =>
    obtain ⟨a, b⟩ := p
    simp only [List.map_cons, List.nodup_cons] at hn
    rcases List.mem_cons.1 h with h | h
    · cases h; simp [aget]
    · have : a ≠ x := by rintro rfl; exact hn.1 (List.mem_map.2 ⟨_, h, rfl⟩)
      rw [aget, if_neg this]
      exact ih hn.2 h

theorem mem_of_aget {L : List (α × β)} {x : α} {y : β} (h : aget L x = some y) : (x, y) ∈ L := by
  induction L with
  | nil => simp [aget] at h
  | cons p L ih =>
    obtain ⟨a, b⟩ := p
    rw [aget] at h
    split at h
    · rename_i he; cases h; subst he; simp
    · exact List.mem_cons_of_mem _ (ih h)

end

section
variable {β : Type} {map : List (List Char)} {groups : List (List Pos)} {colors : List β}

/-- What the class produces: a colouring of the map, each region labelled with its number modulo 36. -/
def Painted (map : List (List Char)) (num : Pos → Nat) (colors : List β) (M : List (List (Option (Char × β)))) : Prop :=
  Coloring map colors M ∧ ∀ p l c, cell M p = some (some (l, c)) → "0123456789ABCDEFGHIJKLMNOPQRSTUVWXYZ".toList[num p % 36]? = some l

theorem labeling_get {k : Nat} {edges : List (Nat × Nat)} {L : List (Nat × β)} (h : Labeling (List.range k) edges colors L) {i : Nat} (hi : i < k) :
    ∃ c ∈ colors, aget L i = some c ∧ (i, c) ∈ L := by
  have : i ∈ L.map Prod.fst := by rw [h.nodes]; simpa using hi
  obtain ⟨⟨_, c⟩, hm, rfl⟩ := List.mem_map.1 this
  exact ⟨c, h.labels _ hm, aget_of_mem (by rw [h.nodes]; exact List.nodup_range) hm, hm⟩

/-- The blank result. -/
def canvas (β : Type) (map : List (List Char)) : List (List (Option (Char × β))) := map.map (fun row => row.map (fun _ => none))

theorem canvas_shape : (canvas β map).map List.length = map.map List.length := by
  simp [canvas, Function.comp_def]

theorem canvas_cell (p : Pos) : cell (canvas β map) p = (cell map p).map (fun _ => none) := cell_map _ _ _

variable {ord : List Pos → List Pos}

/-- Painting a labeling: the shape, and the cells. -/
theorem paint_ok (ho : ∀ l, (ord l).Perm l) (hg : Regions map groups) {edges : List (Nat × Nat)} {L : List (Nat × β)}
    (hL : Labeling (List.range groups.length) edges colors L) :
    ∃ M, paintGroups ord L 0 groups (canvas β map) = .ok M ∧ M.map List.length = map.map List.length ∧
      (∀ i G q, groups[i]? = some G → q ∈ G → ∃ l c, glabels[i % 36]? = some l ∧ c ∈ colors ∧ (i, c) ∈ L ∧ cell M q = some (some (l, c))) ∧
      (∀ q x, cell map q = some x → Blank x → cell M q = some none) := by
  obtain ⟨M, h1, h2, h3, h4⟩ := paintGroups_ok ho L groups 0 (canvas β map) hg.disj
    (fun i hi => by obtain ⟨c, _, h, _⟩ := labeling_get hL hi; rw [Nat.zero_add, h]; rfl)
    (fun G hG p hp => by obtain ⟨x, hx, _⟩ := hg.letter hG hp; rw [canvas_cell, hx]; rfl)
  refine ⟨M, h1, h2.trans canvas_shape, ?_, ?_⟩
  · intro i G q hi hq
    obtain ⟨l, c, hl, hc, hM⟩ := h3 i G q hi hq
    rw [Nat.zero_add] at hl hc
    obtain ⟨c', hc', h5, h6⟩ := labeling_get hL (List.getElem?_eq_some_iff.1 hi).1
    rw [hc] at h5; cases h5
    exact ⟨l, c, hl, hc', h6, hM⟩
  · intro q x hq hx
    rw [h4 q, canvas_cell, hq]
    · rfl
    · intro G hG hqG
      obtain ⟨y, hy, hyb⟩ := hg.letter hG hqG
      rw [hq] at hy; cases hy; exact hyb hx

theorem paint_painted (ho : ∀ l, (ord l).Perm l) (hg : Regions map groups) {L : List (Nat × β)}
    (hL : Labeling (List.range groups.length) (mapEdges 0 groups) colors L) :
    ∃ M, paintGroups ord L 0 groups (canvas β map) = .ok M ∧ Painted map (groupNum groups) colors M := by
  obtain ⟨M, h1, h2, h3, h4⟩ := paint_ok ho hg hL
  have hnd : (L.map Prod.fst).Nodup := by rw [hL.nodes]; exact List.nodup_range
  have hun : ∀ i c c', (i, c) ∈ L → (i, c') ∈ L → c = c' := by
    intro i c c' h h'
    have := aget_of_mem hnd h
    rw [aget_of_mem hnd h'] at this
    exact (Option.some.inj this).symm
  refine ⟨M, h1, ⟨h2, h4, ?_, ?_, ?_⟩, ?_⟩
  · intro p x hp hx
    obtain ⟨i, G, hi, hpG⟩ := hg.at hp hx
    obtain ⟨l, c, _, hc, _, hM⟩ := h3 i G p hi hpG
    exact ⟨l, c, hM, hc⟩
  · intro p q x ha hp hq hx
    obtain ⟨i, G, hi, hpG⟩ := hg.at hp hx
    obtain ⟨l, c, hl, hc, hm, hM⟩ := h3 i G p hi hpG
    obtain ⟨l', c', hl', hc', hm', hM'⟩ := h3 i G q hi (hg.closed (List.mem_of_getElem? hi) hpG ha hp hq)
    rw [hl] at hl'; cases hl'
    cases hun i c c' hm hm'
    rw [hM, hM']
  · intro p q x y ha hp hq hx hy hxy l c l' c' hc hc'
    obtain ⟨i, G, hi, hpG⟩ := hg.at hp hx
    obtain ⟨j, G', hj, hqG⟩ := hg.at hq hy
    obtain ⟨_, _, _, _, hm, hM⟩ := h3 i G p hi hpG
    obtain ⟨_, _, _, _, hm', hM'⟩ := h3 j G' q hj hqG
    rw [hc] at hM; cases hM
    rw [hc'] at hM'; cases hM'
    have hij : i ≠ j := by
      rintro rfl
      rw [hi] at hj; cases hj
      obtain ⟨z, _, hz, hr⟩ := (hg.connected (List.mem_of_getElem? hi) hpG).1 hqG
      rw [hp] at hz; cases hz
      have := Reach.val hr hp
      rw [hq] at this
      exact hxy (Option.some.inj this).symm
    rcases Nat.lt_or_gt_of_ne hij with hlt | hlt
    · exact hL.proper (i, j) ((mem_mapEdges _ _ _).2 ⟨i, j, G, G', hi, hj, hlt, by simp, p, hpG, q, hqG, ha⟩) _ _ hm hm'
    · exact (hL.proper (j, i) ((mem_mapEdges _ _ _).2 ⟨j, i, G', G, hj, hi, hlt, by simp, q, hqG, p, hpG, ha.symm⟩) _ _ hm' hm).symm
  · intro p l c hc
    have hsome : (cell map p).isSome := by rw [← cell_isSome_shape h2, hc]; rfl
    obtain ⟨x, hx⟩ := Option.isSome_iff_exists.1 hsome
    by_cases hb : Blank x
    · rw [h4 p x hx hb] at hc; cases hc
    · obtain ⟨i, G, hi, hpG⟩ := hg.at hx hb
      obtain ⟨l', c', hl', _, _, hM⟩ := h3 i G p hi hpG
      rw [hc] at hM; cases hM
      rw [hg.num hi hpG]; exact hl'

theorem Coloring.region_const {M : List (List (Option (Char × β)))} (h : Coloring map colors M) {p q : Pos} (hr : Region map p q) : cell M p = cell M q := by
  obtain ⟨x, hx, hp, hr⟩ := hr
  induction hr with
  | refl => rfl
  | tail hpa hab ih => exact ih.trans (h.same _ _ x hab.1 (Reach.val hpa hp) hab.2 hx)

theorem paint_surj (ho : ∀ l, (ord l).Perm l) (hg : Regions map groups) {M : List (List (Option (Char × β)))}
    (hM : Painted map (groupNum groups) colors M) :
    ∃ L, Labeling (List.range groups.length) (mapEdges 0 groups) colors L ∧ paintGroups ord L 0 groups (canvas β map) = .ok M := by
  obtain ⟨hM, hlab⟩ := hM
  -- a colour for every group
  have hc : ∀ i : Fin groups.length, ∃ c, c ∈ colors ∧ ∀ p ∈ groups[i], ∃ l, cell M p = some (some (l, c)) := by
    intro i
    obtain ⟨p, hp⟩ := hg.nonempty i.2
    obtain ⟨x, hx, hxb⟩ := hg.letter (List.getElem_mem i.2) hp
    obtain ⟨l, c, hcell, hc⟩ := hM.colored p x hx hxb
    refine ⟨c, hc, fun q hq => ⟨l, ?_⟩⟩
    rw [← Coloring.region_const hM ((hg.connected (List.getElem_mem i.2) hp).1 hq)]; exact hcell
  choose f hf1 hf2 using hc
  let L : List (Nat × β) := List.ofFn (fun i : Fin groups.length => ((i : Nat), f i))
  have hmem : ∀ k c, (k, c) ∈ L ↔ ∃ i : Fin groups.length, (i : Nat) = k ∧ f i = c := by
    intro k c
    simp only [L, List.mem_ofFn, Prod.mk.injEq]
  have hL : Labeling (List.range groups.length) (mapEdges 0 groups) colors L := by
    constructor
    · simp only [L, List.map_ofFn]
      apply List.ext_getElem <;> simp
    · rintro ⟨k, c⟩ h
      obtain ⟨i, _, rfl⟩ := (hmem k c).1 h
      exact hf1 i
    · intro e he x y hx hy
      obtain ⟨i, j, G, G', hi, hj, hij, rfl, p, hp, q, hq, ha⟩ := (mem_mapEdges _ _ _).1 he
      obtain ⟨i', hi', rfl⟩ := (hmem _ _).1 hx
      obtain ⟨j', hj', rfl⟩ := (hmem _ _).1 hy
      simp only [Nat.zero_add] at hi' hj'
      subst hi' hj'
      obtain ⟨hi0, hG⟩ := List.getElem?_eq_some_iff.1 hi
      obtain ⟨hj0, hG'⟩ := List.getElem?_eq_some_iff.1 hj
      obtain ⟨l, hl⟩ := hf2 i' p (by rw [Fin.getElem_fin, hG]; exact hp)
      obtain ⟨l', hl'⟩ := hf2 j' q (by rw [Fin.getElem_fin, hG']; exact hq)
      obtain ⟨a, hpa, hab⟩ := hg.letter (List.mem_of_getElem? hi) hp
      obtain ⟨b, hqb, hbb⟩ := hg.letter (List.mem_of_getElem? hj) hq
      refine hM.different p q a b ha hpa hqb hab hbb ?_ l _ l' _ hl hl'
      rintro rfl
      have := hg.index hi hj (hg.closed (List.mem_of_getElem? hi) hp ha hpa hqb) hq
      omega
  refine ⟨L, hL, ?_⟩
  obtain ⟨M', h1, h2, h3, h4⟩ := paint_ok ho hg hL
  rw [h1]
  congr 1
  refine grid_ext (h2.trans hM.shape.symm) (fun p => ?_)
  cases hx : cell map p with
  | none =>
    have e1 := cell_isSome_shape h2 p
    have e2 := cell_isSome_shape hM.shape p
    rw [hx] at e1 e2
    rw [Option.isSome_none, Option.isSome_eq_false_iff, Option.isNone_iff_eq_none] at e1 e2
    rw [e1, e2]
  | some x =>
    by_cases hb : Blank x
    · rw [h4 p x hx hb, hM.blanks p x hx hb]
    · obtain ⟨i, G, hi, hpG⟩ := hg.at hx hb
      obtain ⟨l, c, hl, _, hm, hMc⟩ := h3 i G p hi hpG
      obtain ⟨i', hi', rfl⟩ := (hmem _ _).1 hm
      subst hi'
      obtain ⟨hi0, hG⟩ := List.getElem?_eq_some_iff.1 hi
      obtain ⟨l', hl'⟩ := hf2 i' p (by rw [Fin.getElem_fin, hG]; exact hpG)
      have := hlab p _ _ hl'
      rw [hg.num hi hpG] at this
      have : some l = some l' := by rw [← hl, ← this]; rfl
      cases this
      rw [hMc, hl']

theorem paint_inj (ho : ∀ l, (ord l).Perm l) (hg : Regions map groups) {edges : List (Nat × Nat)} {L L' : List (Nat × β)} {M : List (List (Option (Char × β)))}
    (hL : Labeling (List.range groups.length) edges colors L) (hL' : Labeling (List.range groups.length) edges colors L')
    (h : paintGroups ord L 0 groups (canvas β map) = .ok M) (h' : paintGroups ord L' 0 groups (canvas β map) = .ok M) : L = L' := by
  obtain ⟨M1, h1, _, h3, _⟩ := paint_ok ho hg hL
  obtain ⟨M2, h1', _, h3', _⟩ := paint_ok ho hg hL'
  rw [h] at h1; cases h1
  rw [h'] at h1'; cases h1'
  have hnd : (L.map Prod.fst).Nodup := by rw [hL.nodes]; exact List.nodup_range
  have hnd' : (L'.map Prod.fst).Nodup := by rw [hL'.nodes]; exact List.nodup_range
  have hlen : L.length = groups.length := by simpa using congrArg List.length hL.nodes
  have hlen' : L'.length = groups.length := by simpa using congrArg List.length hL'.nodes
  have fst : ∀ (L : List (Nat × β)) (_ : L.map Prod.fst = List.range groups.length) i (hi : i < L.length), L[i].1 = i := by
    intro L hL i hi
    have : (L.map Prod.fst)[i]'(by simpa using hi) = (List.range groups.length)[i]'(by rw [← hL]; simpa using hi) := by simp only [hL]
    simpa using this
  apply List.ext_getElem (by omega)
  intro i hi hi'
  have hig : i < groups.length := by omega
  obtain ⟨p, hp⟩ := hg.nonempty hig
  obtain ⟨_, c, _, _, hm, hM⟩ := h3 i _ p (List.getElem?_eq_getElem hig) hp
  obtain ⟨_, c', _, _, hm', hM'⟩ := h3' i _ p (List.getElem?_eq_getElem hig) hp
  rw [hM] at hM'; cases hM'
  have e1 : (i, L[i].2) ∈ L := by
    have := List.getElem_mem hi
    rwa [← Prod.mk.eta (p := L[i]), fst L hL.nodes i hi] at this
  have e2 : (i, L'[i].2) ∈ L' := by
    have := List.getElem_mem hi'
    rwa [← Prod.mk.eta (p := L'[i]), fst L' hL'.nodes i hi'] at this
  have a1 := aget_of_mem hnd e1
  have a2 := aget_of_mem hnd' e2
  rw [aget_of_mem hnd hm] at a1
  rw [aget_of_mem hnd' hm'] at a2
  cases a1
  refine Prod.ext ((fst L hL.nodes i hi).trans (fst L' hL'.nodes i hi').symm) ?_
  exact Option.some.inj a2

/-- For every map with at least one row: the constructor succeeds (in particular its loops end), and if there is a region at all, the
iteration produces exactly the colourings of the map, each once, every region labelled with its number. Without regions it produces
nothing. -/
theorem C42_colorings (h : Heap) (a : SolveArgs) (hs : ∀ l, (a.shuffle l).Perm l) (ha : a.adds = []) (ord : List Pos → List Pos)
    (ho : ∀ l, (ord l).Perm l) (map : List (List Char)) (hne : map ≠ []) (colors : List β) (hl : colors.Nodup) :
    ∃ w groups d num, mapBuild ord map colors ⟨.empty, h⟩ = (w, .ok (some (groups, d))) ∧ Numbering map num ∧
      ((∃ p x, cell map p = some x ∧ ¬ Blank x) →
        PuzzleRun a (puzzleRun a w (mapDecode ord map groups d colors)) (Painted map num colors)) ∧
      ((∀ p x, cell map p = some x → Blank x) → ∀ n, (puzzleRun a w (mapDecode ord map groups d colors) n).1 = .ok []) := by
  obtain ⟨groups, h1, hg⟩ := mapRegions_ok ho hne
  have hedges : ∀ e ∈ mapEdges 0 groups, e.1 ∈ List.range groups.length ∧ e.2 ∈ List.range groups.length := by
    intro e he
    obtain ⟨i, j, G, G', hi, hj, _, rfl, _⟩ := (mem_mapEdges _ _ _).1 he
    have := (List.getElem?_eq_some_iff.1 hi).1
    have := (List.getElem?_eq_some_iff.1 hj).1
    simp only [List.mem_range, Nat.zero_add]
    omega
  have hbuild : ∀ w d, graphBuild (List.range groups.length) (mapEdges 0 groups) colors ⟨.empty, h⟩ = (w, .ok d) →
      mapBuild ord map colors ⟨.empty, h⟩ = (w, .ok (some (groups, d))) := by
    intro w d hw
    unfold mapBuild
    simp only [Api.bind_apply, Api.lift, h1, hw]
    rfl
  by_cases hgr : groups = []
  · subst hgr
    refine ⟨_, [], [], groupNum [], hbuild _ _ rfl, hg.numbering, ?_, ?_⟩
    · rintro ⟨p, x, hp, hx⟩
      obtain ⟨G, hG, _⟩ := hg.all p x hp hx
      simp at hG
    · intro _ n
      exact puzzle_no_vars hs rfl _ n
  · obtain ⟨w, d, hw, hrun⟩ := C37_partial h a hs ha (List.range groups.length) (mapEdges 0 groups) colors List.nodup_range
      (by simpa using hgr) hedges hl
    refine ⟨w, groups, d, groupNum groups, hbuild w d hw, hg.numbering, fun _ => ?_, ?_⟩
    · exact hrun.comp (g := fun L => paintGroups ord L 0 groups (canvas β map)) (W := Painted map (groupNum groups) colors)
        (fun L hL => paint_painted ho hg hL) (fun M hM => paint_surj ho hg hM) (fun L L' M hL hL' e e' => paint_inj ho hg hL hL' e e')
    · intro hb
      exfalso
      obtain ⟨G, hG⟩ := List.exists_mem_of_ne_nil _ hgr
      obtain ⟨p, x, hx, hp, _⟩ := hg.region G hG
      exact hx (hb p x hp)

/-- In every map produced, neighbours with the same letter have the same colour, neighbours with different letters different ones, and
blanks stay blank. -/
theorem C42_sound (h : Heap) (a : SolveArgs) (hs : ∀ l, (a.shuffle l).Perm l) (ha : a.adds = []) (ord : List Pos → List Pos)
    (ho : ∀ l, (ord l).Perm l) (map : List (List Char)) (hne : map ≠ []) (colors : List β) (hl : colors.Nodup) :
    ∃ w groups d, mapBuild ord map colors ⟨.empty, h⟩ = (w, .ok (some (groups, d))) ∧
      ∀ n, ∃ L, (puzzleRun a w (mapDecode ord map groups d colors) n).1 = .ok L ∧ ∀ M ∈ L, Coloring map colors M := by
  obtain ⟨w, groups, d, num, h1, _, h2, h3⟩ := C42_colorings h a hs ha ord ho map hne colors hl
  refine ⟨w, groups, d, h1, fun n => ?_⟩
  by_cases hb : ∃ p x, cell map p = some x ∧ ¬ Blank x
  · obtain ⟨L, hL, hv⟩ := (h2 hb).sound n
    exact ⟨L, hL, fun M hM => (hv M hM).1⟩
  · exact ⟨[], h3 (fun p x hp => by by_contra hx; exact hb ⟨p, x, hp, hx⟩) n, by simp⟩

/-- A map without rows: `max()` of nothing is a `ValueError`. -/
theorem C42_no_rows (w : World) (ord : List Pos → List Pos) (colors : List β) : (mapBuild ord [] colors w).2 = .error .valueError := rfl

end

/-! ## Examples -/

/-- Three regions, a hole, rows of different lengths. -/
def map0 : List (List Char) := pySplit '\n' "AAB\nA.BB\n CC".toList

/-- Two adjacent regions. -/
def map1 : List (List Char) := pySplit '\n' "AA\n.B".toList

example : map1 ≠ [] ∧ (∃ p x, cell map1 p = some x ∧ ¬ Blank x) ∧ [7, 8].Nodup :=
  ⟨by decide, ⟨(0, 0), 'A', by decide, by unfold Blank; decide⟩, by decide⟩

-- the regions and the edges
example : mapRegions id map0 = .ok (some [[(0, 0), (0, 1), (1, 0)], [(0, 2), (1, 2), (1, 3)], [(2, 1), (2, 2)]]) := by decide +kernel

example : mapEdges 0 [[(0, 0), (0, 1), (1, 0)], [(0, 2), (1, 2), (1, 3)], [(2, 1), (2, 2)]] = [(0, 1), (0, 2), (1, 2)] := by decide +kernel

-- both colourings with two colours
example : (match mapBuild id map1 [7, 8] ⟨.empty, heap0⟩ with
    | (w, .ok (some (groups, d))) => (puzzleRun orderedArgs w (mapDecode id map1 groups d [7, 8]) 20).1
    | _ => .error .typeError) =
    .ok [[[some ('0', 7), some ('0', 7)], [none, some ('1', 8)]], [[some ('0', 8), some ('0', 8)], [none, some ('1', 7)]]] := by decide +kernel

end Satisfy.Props
