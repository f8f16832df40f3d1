import Verif.Lemmas.Graph
/-!
# Graph labeling: C37

A world `⟨.empty, h⟩` is a fresh `Model` among arbitrary other objects `h`; `a` are arbitrary solver settings (policy, limit, timeout,
compile, clock, shuffle).
-/

namespace Satisfy.Props
open Satisfy

section
variable {α β : Type} [DecidableEq α]

/-- Specification: one label of the list for every node, different ones at the ends of every edge. -/
structure Labeling (nodes : List α) (edges : List (α × α)) (labels : List β) (L : List (α × β)) : Prop where
  nodes : L.map Prod.fst = nodes
  labels : ∀ p ∈ L, p.2 ∈ labels
  proper : ∀ e ∈ edges, ∀ x y, (e.1, x) ∈ L → (e.2, y) ∈ L → x ≠ y

theorem gdecode {nodes : List α} {labels : List β} {τ : Subst} (he : Exact (gvars 0 nodes.length labels) τ) :
    ∃ L, graphDecode (gtable nodes 0) labels τ = .ok L ∧ L.map Prod.fst = nodes ∧
      (∀ i (hi : i < nodes.length), ∃ v < labels.length, Dict.get? τ (gname i) = some (v : Int) ∧ L[i]?.map Prod.snd = labels[v]?) := by
  have key : ∀ (nodes' : List α) (k : Nat), k + nodes'.length ≤ nodes.length →
      ∃ L, graphDecode (gtable nodes' k) labels τ = .ok L ∧ L.map Prod.fst = nodes' ∧
      (∀ i (hi : i < nodes'.length), ∃ v < labels.length, Dict.get? τ (gname (k + i)) = some (v : Int) ∧ L[i]?.map Prod.snd = labels[v]?) := by
    intro nodes'
    induction nodes' with
    | nil => intro k _; exact ⟨[], rfl, rfl, by simp⟩
    | cons u nodes' ih =>
      intro k hk
      simp only [List.length_cons] at hk
      obtain ⟨L, h1, h2, h3⟩ := ih (k + 1) (by omega)
      obtain ⟨v, hv, hg⟩ := he.val (i := k) (by simp [List.mem_range']; omega)
      obtain ⟨j, hj, rfl⟩ := mem_labelIds.1 hv
      refine ⟨(u, labels[j]) :: L, ?_, by simp [h2], ?_⟩
      · rw [gtable_cons]
        unfold graphDecode at h1 ⊢
        rw [Res.each, h1, show (Expr.var (gname k)).name = gname k from rfl, Subst.at_ok hg, ok_bind, labelAt_nat hj]
        rfl
      · intro i hi
        cases i with
        | zero => exact ⟨j, hj, hg, by simp [hj]⟩
        | succ i =>
          obtain ⟨v, hv, hg, hL⟩ := h3 i (by simpa using hi)
          exact ⟨v, hv, by rw [← hg]; congr 2; omega, by simpa using hL⟩
  obtain ⟨L, h1, h2, h3⟩ := key nodes 0 (by omega)
  exact ⟨L, h1, h2, by simpa using h3⟩

/-- A node's place in the result. -/
theorem mem_result {nodes : List α} (hn : nodes.Nodup) {L : List (α × β)} (hL : L.map Prod.fst = nodes) {u : α} {x : β} (h : (u, x) ∈ L) :
    nodes.idxOf u < nodes.length ∧ L[nodes.idxOf u]?.map Prod.snd = some x := by
  obtain ⟨i, hi, he⟩ := List.getElem_of_mem h
  have hi' : i < nodes.length := by rw [← hL]; simpa using hi
  have hu : nodes[i] = u := by
    have : (L.map Prod.fst)[i]'(by simpa using hi) = u := by simp [he]
    rw [← this]; congr 1; exact hL.symm
  have : nodes.idxOf u = i := by rw [← hu]; exact hn.idxOf_getElem i hi'
  rw [this]
  exact ⟨hi', by simp [hi, he]⟩

/-- Missing from the full claim: lists of labels with repetitions (`C37_refuted`), and the graph without nodes, for which nothing is
produced (`C37_refuted_empty`). Graphs whose edges end outside the node list make the constructor raise (`C37_bad_edge`). -/
theorem C37_partial (h : Heap) (a : SolveArgs) (hs : ∀ l, (a.shuffle l).Perm l) (ha : a.adds = [])
    (nodes : List α) (edges : List (α × α)) (labels : List β) (hn : nodes.Nodup) (hne : nodes ≠ [])
    (he : ∀ e ∈ edges, e.1 ∈ nodes ∧ e.2 ∈ nodes) (hl : labels.Nodup) :
    ∃ w d, graphBuild nodes edges labels ⟨.empty, h⟩ = (w, .ok d) ∧
      PuzzleRun a (puzzleRun a w (graphDecode d labels)) (Labeling nodes edges labels) := by
  obtain ⟨w, hw, hb⟩ := graph_built h (labels := labels) hn he
  refine ⟨w, _, hw, ?_⟩
  have hnd : ((List.range' 0 nodes.length).map gname).Nodup :=
    List.Nodup.map (fun i j h => gname_inj h) List.nodup_range'
  refine hb.puzzle hs ha ?_ ?_ ?_ ?_ ?_
  · cases nodes with
    | nil => exact absurd rfl hne
    | cons u nodes => simp [gvars, tabVars, List.range'_succ]
  · -- a solution decodes to a labeling
    intro τ hτ hC
    obtain ⟨L, h1, h2, h3⟩ := gdecode hτ
    refine ⟨L, h1, h2, ?_, ?_⟩
    · rintro ⟨u, x⟩ hp
      obtain ⟨hi, hx⟩ := mem_result hn h2 hp
      obtain ⟨v, hv, _, hL⟩ := h3 _ hi
      rw [hx] at hL
      simp [hv] at hL
      simp [hL]
    · intro e hee x y hx hy hxy
      obtain ⟨hi, hx⟩ := mem_result hn h2 hx
      obtain ⟨hj, hy⟩ := mem_result hn h2 hy
      obtain ⟨v, hv, g1, hL⟩ := h3 _ hi
      obtain ⟨v', hv', g2, hL'⟩ := h3 _ hj
      rw [hx] at hL; rw [hy] at hL'
      subst hxy
      have : v = v' := by
        rw [hL] at hL'
        exact (List.Nodup.getElem_inj_iff hl).1 (by simpa [hv, hv'] using hL')
      subst this
      exact hC e hee (by rw [val_eq g1, val_eq g2])
  · -- every labeling has an encoding
    intro L hL
    have hlen : L.length = nodes.length := by rw [← hL.nodes]; simp
    have : ∀ i, ∃ v : Nat, i < nodes.length → v < labels.length ∧ L[i]?.map Prod.snd = labels[v]? := by
      intro i
      by_cases hi : i < nodes.length
      · obtain ⟨v, hv, he⟩ := List.getElem_of_mem (hL.labels L[i] (List.getElem_mem _))
        exact ⟨v, fun _ => ⟨hv, by simp [hlen, hi, hv, he]⟩⟩
      · exact ⟨0, fun h => absurd h hi⟩
    obtain ⟨f, hf⟩ := Classical.axiomOfChoice this
    have hex : Exact (gvars 0 nodes.length labels) (tab (List.range' 0 nodes.length) gname (fun i => (f i : Int))) := by
      refine tab_exact hnd (fun i hi => mem_labelIds.2 ⟨f i, (hf i (by simpa [List.mem_range'] using hi)).1, rfl⟩)
    have hget : ∀ i < nodes.length, Dict.get? (tab (List.range' 0 nodes.length) gname (fun i => (f i : Int))) (gname i) = some (f i : Int) :=
      fun i hi => tab_get hnd (by simpa [List.mem_range'] using hi)
    refine ⟨_, hex, ?_, ?_⟩
    · intro e hee heq
      obtain ⟨hu, hv⟩ := he e hee
      have hu' := List.idxOf_lt_length_of_mem hu
      have hv' := List.idxOf_lt_length_of_mem hv
      rw [val_eq (hget _ hu'), val_eq (hget _ hv')] at heq
      have hmem : ∀ u ∈ nodes, (u, L[nodes.idxOf u]?.map Prod.snd) ∈ L.map (fun p => (p.1, some p.2)) := by
        intro u hu
        have hu' := List.idxOf_lt_length_of_mem hu
        refine List.mem_map.2 ⟨L[nodes.idxOf u]'(by omega), List.getElem_mem _, ?_⟩
        have : (L[nodes.idxOf u]'(by omega)).1 = u := by
          have h1 : (L.map Prod.fst)[nodes.idxOf u]'(by simpa using by omega) = nodes[nodes.idxOf u] := by congr 1; exact hL.nodes
          simp only [List.getElem_map] at h1
          rw [h1]; simp
        simp [this, hlen, hu']
      obtain ⟨⟨u, x⟩, hp, hpe⟩ := List.mem_map.1 (hmem _ hu)
      obtain ⟨⟨v, y⟩, hq, hqe⟩ := List.mem_map.1 (hmem _ hv)
      simp only [Prod.mk.injEq] at hpe hqe
      obtain ⟨rfl, hx⟩ := hpe
      obtain ⟨rfl, hy⟩ := hqe
      refine hL.proper e hee x y hp hq ?_
      have : some x = some y := by
        rw [hx, hy, (hf _ hu').2, (hf _ hv').2]
        have : f (nodes.idxOf e.1) = f (nodes.idxOf e.2) := by omega
        rw [this]
      exact Option.some.inj this
    · obtain ⟨L', h1, h2, h3⟩ := gdecode hex
      rw [h1]
      congr 1
      have hlen' : L'.length = nodes.length := by rw [← h2]; simp
      apply List.ext_getElem? 
      intro i
      by_cases hi : i < nodes.length
      · obtain ⟨v, hv, g, hx⟩ := h3 i hi
        rw [hget i hi] at g
        have : v = f i := by have := Option.some.inj g; omega
        subst this
        rw [← (hf i hi).2] at hx
        have hfst : L'[i]?.map Prod.fst = L[i]?.map Prod.fst := by rw [← List.getElem?_map, ← List.getElem?_map, h2, hL.nodes]
        cases hA : L'[i]? with
        | none => rw [List.getElem?_eq_none_iff] at hA; omega
        | some p =>
          cases hB : L[i]? with
          | none => rw [List.getElem?_eq_none_iff] at hB; omega
          | some q =>
            rw [hA, hB] at hx hfst
            simp at hx hfst
            exact congrArg some (Prod.ext hfst hx)
      · rw [List.getElem?_eq_none (by omega), List.getElem?_eq_none (by omega)]
  · -- decoding loses nothing
    intro τ τ' hτ hτ' _ _ hd
    obtain ⟨L, h1, h2, h3⟩ := gdecode hτ
    obtain ⟨L', h1', h2', h3'⟩ := gdecode hτ'
    rw [h1, h1'] at hd; cases hd
    refine hτ.same hτ' (fun x hx => ?_)
    rw [gvars, tabVars_keys] at hx
    obtain ⟨i, hi, rfl⟩ := List.mem_map.1 hx
    have hi : i < nodes.length := by simpa [List.mem_range'] using hi
    obtain ⟨v, hv, g, hL⟩ := h3 i hi
    obtain ⟨v', hv', g', hL'⟩ := h3' i hi
    have : v = v' := by
      rw [hL] at hL'
      exact (List.Nodup.getElem_inj_iff hl).1 (by simpa [hv, hv'] using hL')
    rw [g, g', this]
  · intro τ τ' h
    unfold graphDecode
    congr 1
    funext p
    rw [h.at]

/-! ## Lists of labels with repetitions -/

/-- `B` is `A` with the label at a position instead of the position. -/
def LabelsOf (labels : List β) (A : List (α × Nat)) (B : List (α × β)) : Prop :=
  B.map (fun p => (p.1, some p.2)) = A.map (fun p => (p.1, labels[p.2]?))

theorem labelIds_range (labels : List β) : labelIds (List.range labels.length) = labelIds labels := by
  simp [labelIds]

theorem graphNodes_range (labels : List β) (nodes : List α) (d : List (α × Expr)) :
    graphNodes (List.range labels.length) nodes d = graphNodes labels nodes d := by
  induction nodes generalizing d with
  | nil => rfl
  | cons u nodes ih => simp only [graphNodes, labelIds_range, ih]

theorem graphBuild_range (nodes : List α) (edges : List (α × α)) (labels : List β) :
    graphBuild nodes edges (List.range labels.length) = graphBuild nodes edges labels := by
  simp only [graphBuild, graphNodes_range]

theorem graphDecode_range {d : List (α × Expr)} {labels : List β} {τ : Subst} {A : List (α × Nat)}
    (h : graphDecode d (List.range labels.length) τ = .ok A) : ∃ B, graphDecode d labels τ = .ok B ∧ LabelsOf labels A B := by
  unfold graphDecode at h ⊢
  induction d generalizing A with
  | nil => cases h; exact ⟨[], rfl, rfl⟩
  | cons p d ih =>
    simp only [Res.each] at h ⊢
    obtain ⟨q, hq, h⟩ := bind_eq_ok.1 h
    obtain ⟨A', hA', h⟩ := bind_eq_ok.1 h
    cases h
    obtain ⟨B', hB', hrel⟩ := ih hA'
    obtain ⟨i, hi, hq⟩ := bind_eq_ok.1 hq
    obtain ⟨j, hj, hq⟩ := bind_eq_ok.1 hq
    cases hq
    have : ∃ b, labelAt labels i = .ok b ∧ labels[j]? = some b := by
      unfold labelAt at hj ⊢
      by_cases h0 : i < 0
      · simp [h0] at hj
      · simp only [h0, if_false] at hj ⊢
        by_cases h1 : i.toNat < labels.length
        · rw [List.getElem?_range h1] at hj
          cases hj
          exact ⟨labels[i.toNat], by simp [h1], by simp [h1]⟩
        · rw [List.getElem?_eq_none (by simpa using h1)] at hj
          cases hj
    obtain ⟨b, hb, hbj⟩ := this
    refine ⟨(p.1, b) :: B', ?_, ?_⟩
    · rw [hi, ok_bind, hb, ok_bind, hB']; rfl
    · unfold LabelsOf at hrel ⊢
      simp only [List.map_cons, hrel, hbj]

/-- With repetitions or without: what is labeled properly and completely, each way once, are the positions `0, 1, …` of the list; a
result has the labels found there. -/
theorem C37_positions (h : Heap) (a : SolveArgs) (hs : ∀ l, (a.shuffle l).Perm l) (ha : a.adds = [])
    (nodes : List α) (edges : List (α × α)) (labels : List β) (hn : nodes.Nodup) (hne : nodes ≠ [])
    (he : ∀ e ∈ edges, e.1 ∈ nodes ∧ e.2 ∈ nodes) :
    ∃ w d, graphBuild nodes edges labels ⟨.empty, h⟩ = (w, .ok d) ∧
      ∃ pos : Nat → Res (List (List (α × Nat))) × Gen,
        PuzzleRun a pos (Labeling nodes edges (List.range labels.length)) ∧
        ∀ n, (puzzleRun a w (graphDecode d labels) n).2 = (pos n).2 ∧ ∃ P L, (pos n).1 = .ok P ∧
          (puzzleRun a w (graphDecode d labels) n).1 = .ok L ∧ List.Forall₂ (LabelsOf labels) P L := by
  obtain ⟨w, d, hw, hr⟩ := C37_partial h a hs ha nodes edges (List.range labels.length) hn hne he List.nodup_range
  rw [graphBuild_range] at hw
  refine ⟨w, d, hw, _, hr, fun n => ⟨rfl, ?_⟩⟩
  obtain ⟨P, hP, -⟩ := hr.sound n
  refine ⟨P, ?_⟩
  simp only [puzzleRun] at hP ⊢
  generalize (solveRun a w.model passive n w.heap).1 = outs at hP ⊢
  induction outs generalizing P with
  | nil => cases hP; exact ⟨[], rfl, rfl, .nil⟩
  | cons τ outs ih =>
    simp only [Res.each] at hP ⊢
    obtain ⟨A, hA, hP⟩ := bind_eq_ok.1 hP
    obtain ⟨P', hP', hP⟩ := bind_eq_ok.1 hP
    cases hP
    obtain ⟨B, hB, hAB⟩ := graphDecode_range hA
    obtain ⟨L, h1, h2, h3⟩ := ih P' hP'
    exact ⟨B :: L, by rw [hA, hP']; rfl, by rw [hB, h2]; rfl, .cons hAB h3⟩

/-- The graph without nodes: nothing is produced. -/
theorem C37_no_nodes (h : Heap) (a : SolveArgs) (hs : ∀ l, (a.shuffle l).Perm l) (labels : List β) :
    ∃ w d, graphBuild ([] : List α) [] labels ⟨.empty, h⟩ = (w, .ok d) ∧ ∀ n, (puzzleRun a w (graphDecode d labels) n).1 = .ok [] :=
  ⟨_, _, rfl, puzzle_no_vars hs rfl _⟩

/-- An edge to an unknown node: `KeyError`. -/
theorem C37_bad_edge (d : List (α × Expr)) (e : α × α) (hb : aget d e.1 = none ∨ aget d e.2 = none) (w : World) :
    (graphEdge d e w).2 = .error .keyError := by
  unfold graphEdge aat
  rcases hb with hb | hb
  · simp [Api.bind_apply, Api.lift, hb]
  · cases h : aget d e.1 <;> simp [Api.bind_apply, Api.lift, hb, h]

end

/-! ## Refutations and examples -/

/-- Solver settings as the class sets them up by default (graph_labeling.py:11-12). -/
def orderedArgs : SolveArgs := { solver := { policy := .ordered } }

/-- The full claim. -/
def C37 : Prop := ∀ (nodes : List Nat) (edges : List (Nat × Nat)) (labels : List String), nodes.Nodup →
  (∀ e ∈ edges, e.1 ∈ nodes ∧ e.2 ∈ nodes) → ∃ w d, graphBuild nodes edges labels ⟨.empty, heap0⟩ = (w, .ok d) ∧
      PuzzleRun orderedArgs (puzzleRun orderedArgs w (graphDecode d labels)) (Labeling nodes edges labels)

/-- Labels are compared by position: with the label list `a, a` both ends of an edge get the label `a`. -/
theorem C37_refuted : ¬ C37 := by
  intro h
  obtain ⟨w, d, h1, h2⟩ := h [0, 1] [(0, 1)] ["a", "a"] (by decide) (by decide)
  have h3 : (puzzleRun orderedArgs (built (graphBuild [0, 1] [(0, 1)] ["a", "a"]) []).1
      (graphDecode (built (graphBuild [0, 1] [(0, 1)] ["a", "a"]) []).2 ["a", "a"]) 3).1 = .ok [[(0, "a"), (1, "a")]] := by decide
  simp only [built, h1] at h3
  obtain ⟨L, h4, h5⟩ := h2.sound 3
  rw [h3] at h4; cases h4
  exact (h5 [(0, "a"), (1, "a")] (by simp)).proper (0, 1) (by simp) "a" "a" (by simp) (by simp) rfl

/-- The graph without nodes has one labeling, the empty dict; it is not produced. -/
theorem C37_refuted_empty : ¬ C37 := by
  intro h
  obtain ⟨w, d, h1, h2⟩ := h [] [] ["a"] (by decide) (by decide)
  cases h1
  exact not_complete (fun l => .refl _) rfl [] ⟨rfl, by simp, by simp⟩ rfl rfl h2.toPuzzleAll

-- a path with three nodes and two labels: both labelings
example : (puzzleRun orderedArgs (built (graphBuild ["u", "v", "w"] [("u", "v"), ("v", "w")] [7, 8]) []).1
      (graphDecode (built (graphBuild ["u", "v", "w"] [("u", "v"), ("v", "w")] [7, 8]) []).2 [7, 8]) 20).1 =
    .ok [[("u", 7), ("v", 8), ("w", 7)], [("u", 8), ("v", 7), ("w", 8)]] := by decide

end Satisfy.Props
