import Verif.Graph
import Verif.Lemmas.Arith
/-! Lemmas on graph labeling. -/

namespace Satisfy

theorem aget_append_ne {α β : Type} [DecidableEq α] {d : List (α × β)} {x : α} {l : List (α × β)} (h : ∀ p ∈ d, p.1 ≠ x) :
    aget (d ++ l) x = aget l x := by
  induction d with
  | nil => rfl
  | cons p d ih =>
    obtain ⟨k, v⟩ := p
    rw [List.cons_append, aget, if_neg (h (k, v) (by simp)), ih (fun p hp => h p (by simp [hp]))]

theorem aset_fresh {α β : Type} [DecidableEq α] {d : List (α × β)} {x : α} {y : β} (h : ∀ p ∈ d, p.1 ≠ x) :
    aset d x y = d ++ [(x, y)] := by
  induction d with
  | nil => rfl
  | cons p d ih =>
    obtain ⟨k, v⟩ := p
    rw [List.cons_append, aset, if_neg (h (k, v) (by simp)), ih (fun p hp => h p (by simp [hp]))]

theorem labelIds_nodup {β : Type} (labels : List β) : (labelIds labels).Nodup := by
  rw [labelIds]
  exact List.Nodup.map (fun a b h => Int.ofNat.inj h) List.nodup_range

theorem mem_labelIds {β : Type} {labels : List β} {v : Int} : v ∈ labelIds labels ↔ ∃ i < labels.length, v = (i : Int) := by
  simp [labelIds, eq_comm]

theorem labelAt_nat {β : Type} {labels : List β} {i : Nat} (h : i < labels.length) : labelAt labels (i : Int) = .ok labels[i] := by
  simp [labelAt, h, Int.not_lt.2 (Int.natCast_nonneg i)]

section
variable {α β : Type} [DecidableEq α]

def gname (i : Nat) : Name := "n_" ++ toString i

theorem gname_ok (i : Nat) : checkName (gname i) = true ∧ NameOk (gname i) :=
  name1_ok (p := "n_") (c := 'n') (cs := ['_']) rfl (by decide) (by decide) (by decide) i

theorem gname_inj {i j : Nat} (h : gname i = gname j) : i = j := name1_inj h

def gtable (nodes : List α) (k : Nat) : List (α × Expr) := (nodes.zipIdx k).map (fun p => (p.1, .var (gname p.2)))

theorem gtable_cons (a : α) (nodes : List α) (k : Nat) : gtable (a :: nodes) k = (a, .var (gname k)) :: gtable nodes (k + 1) := by
  simp [gtable]

theorem gtable_get {nodes : List α} {k : Nat} {u : α} (h : u ∈ nodes) : aget (gtable nodes k) u = some (.var (gname (k + nodes.idxOf u))) := by
  induction nodes generalizing k with
  | nil => simp at h
  | cons a nodes ih =>
    rw [gtable_cons, aget]
    by_cases ha : a = u
    · simp [ha]
    · rw [if_neg ha, ih ((List.mem_cons.1 h).resolve_left (fun e => ha e.symm)), List.idxOf_cons]
      have : (a == u) = false := by simpa using ha
      simp only [this, cond_false]
      congr 3; omega

def gvars (k n : Nat) (labels : List β) : Dict (List Int) := tabVars (List.range' k n) gname (fun _ => labelIds labels)

theorem graphNodes_built {ρ : Store} {w : World} {vs : Dict (List Int)} {C : Subst → Prop} (labels : List β) (nodes : List α)
    (d : List (α × Expr)) (hb : Built ρ w vs C) (hn : nodes.Nodup) (hd : ∀ p ∈ d, p.1 ∉ nodes)
    (hf : ∀ i, d.length ≤ i → gname i ∉ vs.keys) :
    ∃ w', graphNodes labels nodes d w = (w', .ok (d ++ gtable nodes d.length)) ∧ Built ρ w' (vs ++ gvars d.length nodes.length labels) C := by
  induction nodes generalizing w vs d with
  | nil =>
    refine ⟨w, ?_, ?_⟩
    · simp [graphNodes, gtable]; rfl
    · simpa [gvars, tabVars] using hb
  | cons a nodes ih =>
    obtain ⟨w1, h1, hb1⟩ := hb.addInt (labelIds_nodup labels) (gname_ok d.length).1 (hf d.length (Nat.le_refl _))
    have hset : aset d a (.var (gname d.length)) = d ++ [(a, .var (gname d.length))] :=
      aset_fresh (fun p hp he => hd p hp (by rw [he]; exact List.mem_cons_self))
    obtain ⟨w2, h2, hb2⟩ := ih (d ++ [(a, .var (gname d.length))]) hb1 (List.nodup_cons.1 hn).2
      (by
        intro p hp
        rcases List.mem_append.1 hp with hp | hp
        · exact fun hc => hd p hp (by simp [hc])
        · simp at hp; subst hp; exact (List.nodup_cons.1 hn).1)
      (by
        intro i hi hc
        simp only [List.length_append, List.length_cons, List.length_nil] at hi
        simp only [Dict.keys, List.map_append, List.map_cons, List.map_nil, List.mem_append, List.mem_cons, List.not_mem_nil, or_false] at hc
        rcases hc with hc | hc
        · exact hf i (by omega) hc
        · have := gname_inj hc; omega)
    simp only [List.length_append, List.length_cons, List.length_nil] at h2 hb2
    refine ⟨w2, ?_, ?_⟩
    · rw [graphNodes]
      simp only [Api.bind_apply]
      rw [show ("n_" ++ toString d.length : String) = gname d.length from rfl, h1]
      simp only
      rw [hset, h2, gtable_cons]
      simp
    · have : gvars d.length (a :: nodes).length labels = (gname d.length, labelIds labels) :: gvars (d.length + 1) nodes.length labels := by
        simp [gvars, tabVars, List.range'_succ]
      rw [this]
      simpa using hb2

theorem graph_built (h : Heap) {nodes : List α} {edges : List (α × α)} {labels : List β} (hn : nodes.Nodup)
    (he : ∀ e ∈ edges, e.1 ∈ nodes ∧ e.2 ∈ nodes) :
    ∃ w, graphBuild nodes edges labels ⟨.empty, h⟩ = (w, .ok (gtable nodes 0)) ∧
      Built h.params w (gvars 0 nodes.length labels)
        (fun σ => ∀ e ∈ edges, val σ (gname (nodes.idxOf e.1)) ≠ val σ (gname (nodes.idxOf e.2))) := by
  obtain ⟨w1, h1, hb1⟩ := graphNodes_built (β := β) labels nodes [] (BuiltC.empty h) hn (by simp) (by simp [Dict.keys])
  simp only [List.nil_append, List.length_nil] at h1 hb1
  have hk : ∀ u ∈ nodes, gname (nodes.idxOf u) ∈ (gvars 0 nodes.length labels).keys := by
    intro u hu
    rw [gvars, tabVars_keys]
    exact List.mem_map_of_mem (by simpa [List.mem_range'] using List.idxOf_lt_length_of_mem hu)
  obtain ⟨w2, h2, hb2⟩ := Api.each_spec (f := graphEdge (gtable nodes 0)) (g := fun _ => ())
    (I := fun pre w => Built h.params w (gvars 0 nodes.length labels)
      (fun σ => ∀ e ∈ pre, val σ (gname (nodes.idxOf e.1)) ≠ val σ (gname (nodes.idxOf e.2)))) edges
    (by
      intro pre e post w hpre hw
      obtain ⟨hu, hv⟩ := he e (by simp [hpre])
      obtain ⟨w', h3, h4⟩ := hw.addCmp (xs := [gname (nodes.idxOf e.1), gname (nodes.idxOf e.2)]) .ne
        (Den.var (x := gname (nodes.idxOf e.1)) (by simp)) (Den.var (x := gname (nodes.idxOf e.2)) (by simp))
        (by intro x hx; simp at hx; rcases hx with rfl | rfl; exact hk _ hu; exact hk _ hv)
        (by intro x hx; simp at hx; rcases hx with rfl | rfl <;> exact (gname_ok _).2)
      refine ⟨w', ?_, h4.congr (fun σ _ => ?_)⟩
      · simp only [graphEdge, Api.bind_apply, Api.lift, aat, gtable_get hu, gtable_get hv, Nat.zero_add]
        exact h3
      · simp only [Cmp.holds, decide_eq_true_eq, List.mem_append, List.mem_singleton]
        constructor
        · rintro ⟨h5, h6⟩ e' (h7 | rfl)
          · exact h5 e' h7
          · exact h6
        · intro h5
          exact ⟨fun e' h7 => h5 e' (.inl h7), h5 e (.inr rfl)⟩)
    w1 (hb1.congr (by simp))
  refine ⟨w2, ?_, hb2⟩
  simp only [graphBuild, Api.bind_apply, h1, h2]
  rfl

end
end Satisfy
