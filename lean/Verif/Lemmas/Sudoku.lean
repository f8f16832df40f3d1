import Verif.Sudoku
import Verif.Lemmas.Queens
/-! Lemmas on the sudoku model. -/

namespace Satisfy

def sname (k : Cell) : Name := "c_" ++ toString k.1 ++ "_" ++ toString k.2

theorem sname_inj {k k' : Cell} (h : sname k = sname k') : k = k' := by
  obtain ⟨h1, h2⟩ := pair_inj h; exact Prod.ext h1 h2

theorem sname_ok (k : Cell) : checkName (sname k) = true ∧ NameOk (sname k) :=
  name2_ok (p := "c_") (c := 'c') (cs := ['_']) rfl (by decide) (by decide) k.1 k.2

theorem mem_sudokuCells {k : Cell} : k ∈ sudokuCells ↔ k.1 < 9 ∧ k.2 < 9 := by
  obtain ⟨r, c⟩ := k
  simp [sudokuCells]

theorem sudokuCells_nodup : sudokuCells.Nodup := by decide

/-- Two cells see each other. -/
def Sees (k k' : Cell) : Prop := k.1 = k'.1 ∨ k.2 = k'.2 ∨ k.block = k'.block

theorem mem_sudokuDomain {ord : List Int → List Int} (ho : ∀ l, (ord l).Perm l) {schema : List (List (Option Int))} {k : Cell} {v : Int} :
    v ∈ sudokuDomain ord schema k ↔ (1 ≤ v ∧ v ≤ 9) ∧ ∀ k' ∈ sudokuCells, Sees k' k → schemaAt schema k' ≠ some (some v) := by
  have gen : ∀ (cells : List Cell) (d : List Int), v ∈ cells.foldl (sudokuDiscard schema k) d ↔ v ∈ d ∧ ∀ k' ∈ cells, Sees k' k → schemaAt schema k' ≠ some (some v) := by
    intro cells
    induction cells with
    | nil => simp
    | cons k' cells ih =>
      intro d
      rw [List.foldl_cons, ih]
      simp only [List.mem_cons, forall_eq_or_imp, ← and_assoc]
      refine and_congr_left (fun _ => ?_)
      unfold sudokuDiscard
      split
      · rename_i hs
        split
        · rename_i u hu
          simp only [List.mem_filter, decide_eq_true_eq, hu, ne_eq, Option.some.injEq]
          refine and_congr_right (fun _ => ⟨fun h _ e => h e.symm, fun h e => h hs e.symm⟩)
        · rename_i hu
          exact ⟨fun h => ⟨h, fun _ => hu v⟩, fun h => h.1⟩
      · rename_i hs
        exact ⟨fun h => ⟨h, fun h' => absurd h' hs⟩, fun h => h.1⟩
  rw [sudokuDomain, (ho _).mem_iff, gen, mem_pyRange]
  have : (1 ≤ v ∧ v < 10) ↔ (1 ≤ v ∧ v ≤ 9) := by omega
  rw [this]

theorem sudokuDomain_nodup {ord : List Int → List Int} (ho : ∀ l, (ord l).Perm l) (schema : List (List (Option Int))) (k : Cell) : (sudokuDomain ord schema k).Nodup := by
  have gen : ∀ (cells : List Cell) (d : List Int), d.Nodup → (cells.foldl (sudokuDiscard schema k) d).Nodup := by
    intro cells
    induction cells with
    | nil => intro d h; exact h
    | cons k' cells ih =>
      intro d h
      rw [List.foldl_cons]
      apply ih
      unfold sudokuDiscard
      split
      · split
        · exact h.filter _
        · exact h
      · exact h
  exact (ho _).nodup_iff.2 (gen _ _ (pyRange_nodup _ _))

/-- The empty cells. -/
def blanks (schema : List (List (Option Int))) (cells : List Cell) : List Cell :=
  cells.filter (fun k => match schemaAt schema k with | some v => isNull v | none => false)

structure Shape (schema : List (List (Option Int))) : Prop where
  rows : schema.length = 9
  cols : ∀ row ∈ schema, row.length = 9
  entries : ∀ row ∈ schema, ∀ v ∈ row, isAccepted v = true

theorem Shape.at {schema : List (List (Option Int))} (h : Shape schema) {k : Cell} (hk : k ∈ sudokuCells) :
    ∃ v, schemaAt schema k = some v ∧ isAccepted v = true := by
  obtain ⟨h1, h2⟩ := mem_sudokuCells.1 hk
  have hr : k.1 < schema.length := by rw [h.rows]; exact h1
  have hc : k.2 < schema[k.1].length := by rw [h.cols _ (List.getElem_mem _)]; exact h2
  refine ⟨schema[k.1][k.2], by simp [schemaAt, hr, hc], h.entries _ (List.getElem_mem _) _ (List.getElem_mem _)⟩

theorem Res.each_ok_iff {α β : Type} {f : α → Res β} {l : List α} : (∃ L, Res.each f l = .ok L) ↔ ∀ x ∈ l, ∃ y, f x = .ok y := by
  induction l with
  | nil => simp [Res.each]
  | cons a l ih =>
    simp only [Res.each, List.mem_cons, forall_eq_or_imp, ← ih]
    constructor
    · rintro ⟨L, h⟩
      obtain ⟨b, hb, h⟩ := bind_eq_ok.1 h
      obtain ⟨bs, hbs, h⟩ := bind_eq_ok.1 h
      exact ⟨⟨b, hb⟩, ⟨bs, hbs⟩⟩
    · rintro ⟨⟨b, hb⟩, ⟨bs, hbs⟩⟩
      exact ⟨b :: bs, by rw [hb, hbs]; rfl⟩

theorem sudokuCheck_iff {schema : List (List (Option Int))} :
    sudokuCheck schema = .ok () ↔ schema.length = 9 ∧ ∀ row ∈ schema, row.length ≤ 9 ∧ ∀ v ∈ row, isAccepted v = true := by
  unfold sudokuCheck
  by_cases hl : schema.length = 9
  · simp only [hl, ne_eq, not_true, if_false, true_and]
    have : ∀ (x : Res (List (List Unit))), (x >>= fun _ => (pure () : Res Unit)) = .ok () ↔ ∃ L, x = .ok L := by
      intro x; rw [bind_eq_ok]; exact ⟨fun ⟨a, h, _⟩ => ⟨a, h⟩, fun ⟨a, h⟩ => ⟨a, h, rfl⟩⟩
    rw [this, Res.each_ok_iff]
    refine forall_congr' (fun row => imp_congr_right (fun _ => ?_))
    rw [Res.each_ok_iff]
    constructor
    · intro h
      have key : ∀ i (hi : i < row.length), isAccepted row[i] = true ∧ i < 9 := by
        intro i hi
        obtain ⟨y, hy⟩ := h (row[i], i) (by simp [List.mk_mem_zipIdx_iff_getElem?, hi])
        simp only at hy
        cases ha : isAccepted row[i] with
        | false => simp [ha] at hy
        | true =>
          refine ⟨rfl, ?_⟩
          by_contra hc
          rw [if_neg (by simp [ha]), if_pos (by omega)] at hy; cases hy
      constructor
      · by_contra hc
        have := (key 9 (by omega)).2
        omega
      · intro v hv
        obtain ⟨i, hi, rfl⟩ := List.getElem_of_mem hv
        exact (key i hi).1
    · rintro ⟨h1, h2⟩ ⟨v, i⟩ hp
      obtain ⟨hi, rfl⟩ := List.getElem?_eq_some_iff.1 (List.mk_mem_zipIdx_iff_getElem?.1 hp)
      refine ⟨(), ?_⟩
      simp only [h2 _ (List.getElem_mem hi), Bool.not_true, Bool.false_eq_true, if_false]
      rw [if_neg (by omega)]
  · simp [hl]

/-- What one of the three loops says. -/
def sUnit (is : List Cell) (idx : Cell → Nat) (σ : Subst) : Prop :=
  ∀ i < 9, ∀ k ∈ is, ∀ k' ∈ is, idx k = i → idx k' = i → k ≠ k' → val σ (sname k) ≠ val σ (sname k')

theorem sudokuUnits_built {ρ : Store} {w : World} {is : List Cell} {dom : Cell → List Int} {C : Subst → Prop} (idx : Cell → Nat)
    (hb : Built ρ w (tabVars is sname dom) C) :
    ∃ w' u, sudokuUnits (is.map (fun k => (k, .var (sname k)))) idx w = (w', .ok u) ∧
      Built ρ w' (tabVars is sname dom) (fun σ => C σ ∧ sUnit is idx σ) := by
  obtain ⟨w', e, b⟩ := Api.each_spec (f := fun i =>
      let l := (is.map (fun k => (k, Expr.var (sname k)))).filter (fun p => idx p.1 = i)
      if l.length > 1 then addAllDifferent (l.map (fun p => p.2.name)) else (return ())) (g := fun _ => ())
    (I := fun pre w => Built ρ w (tabVars is sname dom) (fun σ => C σ ∧
      ∀ i ∈ pre, ∀ k ∈ is, ∀ k' ∈ is, idx k = i → idx k' = i → k ≠ k' → val σ (sname k) ≠ val σ (sname k'))) (List.range 9)
    (by
      intro pre i post w _ hw
      have hl : (is.map (fun k => (k, Expr.var (sname k)))).filter (fun p => idx p.1 = i) =
          (is.filter (fun k => idx k = i)).map (fun k => (k, Expr.var (sname k))) := by
        rw [List.filter_map]; rfl
      have hsnoc : ∀ σ, ((C σ ∧ ∀ i ∈ pre, ∀ k ∈ is, ∀ k' ∈ is, idx k = i → idx k' = i → k ≠ k' → val σ (sname k) ≠ val σ (sname k')) ∧
          (∀ k ∈ is, ∀ k' ∈ is, idx k = i → idx k' = i → k ≠ k' → val σ (sname k) ≠ val σ (sname k'))) ↔
          (C σ ∧ ∀ i' ∈ pre ++ [i], ∀ k ∈ is, ∀ k' ∈ is, idx k = i' → idx k' = i' → k ≠ k' → val σ (sname k) ≠ val σ (sname k')) := by
        intro σ
        simp only [List.mem_append, List.mem_singleton, and_assoc]
        refine and_congr_right (fun _ => ⟨?_, ?_⟩)
        · rintro ⟨h3, h4⟩ c' (h5 | rfl)
          · exact h3 c' h5
          · exact h4
        · intro h3; exact ⟨fun c' h => h3 c' (.inl h), h3 i (.inr rfl)⟩
      simp only [hl, List.length_map, List.map_map]
      by_cases hlen : (is.filter (fun k => idx k = i)).length > 1
      · rw [if_pos hlen]
        have f1 : ((fun p : Cell × Expr => p.2.name) ∘ fun k => (k, Expr.var (sname k))) = sname := rfl
        rw [f1]
        obtain ⟨w', e, b⟩ := hw.addAllDiff ((is.filter (fun k => idx k = i)).map sname) (by
          intro x hx; rw [tabVars_keys]
          obtain ⟨k, hk, rfl⟩ := List.mem_map.1 hx
          exact List.mem_map_of_mem (List.mem_filter.1 hk).1)
        refine ⟨w', e, b.congr (fun σ hσ => ?_)⟩
        rw [allDiff_tab hσ (fun _ _ h => sname_inj h) (fun j hj => (List.mem_filter.1 hj).1), ← hsnoc σ]
        refine and_congr_right (fun _ => ?_)
        simp only [List.mem_filter, decide_eq_true_eq]
        exact ⟨fun h k hk k' hk' e e' => h k ⟨hk, e⟩ k' ⟨hk', e'⟩, fun h k hk k' hk' => h k hk.1 k' hk'.1 hk.2 hk'.2⟩
      · rw [if_neg hlen]
        refine ⟨w, rfl, hw.congr (fun σ hσ => ?_)⟩
        rw [← hsnoc σ]
        refine (and_iff_left (fun k hk k' hk' e e' hne => ?_)).symm
        have h1 : k ∈ is.filter (fun k => idx k = i) := List.mem_filter.2 ⟨hk, by simpa using e⟩
        have h2 : k' ∈ is.filter (fun k => idx k = i) := List.mem_filter.2 ⟨hk', by simpa using e'⟩
        match hF : is.filter (fun k => idx k = i), hlen with
        | [], _ => rw [hF] at h1; simp at h1
        | [x], _ => rw [hF] at h1 h2; simp at h1 h2; exact absurd (h1.trans h2.symm) hne
        | _ :: _ :: _, hlen => simp at hlen)
    w (by simpa using hb)
  refine ⟨w', _, e, b.congr (fun σ _ => ?_)⟩
  simp [sUnit]

/-- A loop stops at the first round that raises. -/
theorem Api.each_first {α β : Type} {f : α → Api β} {x : α} {post : List α} {e : Err} {w1 w2 : World} (hx : f x w1 = (w2, .error e)) :
    ∀ {pre : List α} {w : World} {L : List β}, Api.each f pre w = (w1, .ok L) → Api.each f (pre ++ x :: post) w = (w2, .error e) := by
  intro pre
  induction pre with
  | nil =>
    intro w L h
    cases h
    simp [Api.each, Api.bind_apply, hx]
  | cons y pre ih =>
    intro w L h
    simp only [List.cons_append, Api.each, Api.bind_apply] at h ⊢
    rcases hy : f y w with ⟨w', e' | b⟩ <;> rw [hy] at h
    · simp at h
    · simp only at h ⊢
      rcases hl : Api.each f pre w' with ⟨w3, e' | L'⟩ <;> rw [hl] at h
      · simp at h
      · cases h
        rw [ih hl]

/-- The variables of some cells that are all there. -/
theorem sudoku_cells (h : Heap) {ord : List Int → List Int} (ho : ∀ l, (ord l).Perm l) {schema : List (List (Option Int))} {cells : List Cell} (hnd : cells.Nodup) (hat : ∀ k ∈ cells, schemaAt schema k ≠ none) :
    ∃ w, Api.each (sudokuCell ord schema) cells ⟨.empty, h⟩ = (w, .ok (cells.map (fun k => match schemaAt schema k with
        | some v => if isNull v then some (k, .var (sname k)) else none | none => none))) ∧
      Built h.params w (tabVars (blanks schema cells) sname (sudokuDomain ord schema)) (fun _ => True) :=
  Api.each_spec (f := sudokuCell ord schema)
    (g := fun k => match schemaAt schema k with | some v => if isNull v then some (k, .var (sname k)) else none | none => none)
    (I := fun pre w => Built h.params w (tabVars (blanks schema pre) sname (sudokuDomain ord schema)) (fun _ => True)) cells
    (by
      intro pre k post w he hw
      obtain ⟨v, hv⟩ := Option.ne_none_iff_exists'.1 (hat k (by rw [he]; simp))
      have hnd : (pre ++ k :: post).Nodup := by rw [← he]; exact hnd
      have hfr : k ∉ pre := fun h => (List.nodup_append.1 hnd).2.2 k h k (by simp) rfl
      unfold sudokuCell
      simp only [hv]
      cases hn : isNull v with
      | false =>
        refine ⟨w, by simp; rfl, ?_⟩
        have : blanks schema (pre ++ [k]) = blanks schema pre := by simp [blanks, hv, hn]
        rw [this]; exact hw
      | true =>
        obtain ⟨w', e, b⟩ := hw.addTab k (sudokuDomain_nodup ho schema k) (sname_ok k).1
          (fun j hj he => hfr (by rw [← sname_inj he]; exact (List.mem_filter.1 hj).1))
        have : blanks schema (pre ++ [k]) = blanks schema pre ++ [k] := by simp [blanks, hv, hn]
        rw [this]
        refine ⟨w', ?_, b⟩
        simp only [if_true, Api.bind_apply]
        rw [show ("c_" ++ toString k.1 ++ "_" ++ toString k.2 : String) = sname k from rfl, e]
        rfl)
    ⟨.empty, h⟩ (BuiltC.empty h)

theorem sudoku_built (h : Heap) {ord : List Int → List Int} (ho : ∀ l, (ord l).Perm l) {schema : List (List (Option Int))} (hsh : Shape schema) :
    ∃ w, sudokuBuild ord schema ⟨.empty, h⟩ = (w, .ok ((blanks schema sudokuCells).map (fun k => (k, .var (sname k))))) ∧
      Built h.params w (tabVars (blanks schema sudokuCells) sname (sudokuDomain ord schema))
        (fun σ => sUnit (blanks schema sudokuCells) Prod.fst σ ∧ sUnit (blanks schema sudokuCells) Prod.snd σ ∧
          sUnit (blanks schema sudokuCells) Cell.block σ) := by
  have hchk : sudokuCheck schema = .ok () :=
    sudokuCheck_iff.2 ⟨hsh.rows, fun row hr => ⟨by rw [hsh.cols row hr], hsh.entries row hr⟩⟩
  obtain ⟨w1, e1, b1⟩ := sudoku_cells h ho sudokuCells_nodup (schema := schema) (fun k hk => by
    obtain ⟨v, hv, _⟩ := hsh.at hk
    simp [hv])
  have hvars : (sudokuCells.map (fun k => match schemaAt schema k with
      | some v => if isNull v then some (k, Expr.var (sname k)) else none | none => none)).filterMap id =
      (blanks schema sudokuCells).map (fun k => (k, .var (sname k))) := by
    generalize sudokuCells = cells
    induction cells with
    | nil => rfl
    | cons k cells ih =>
      rw [List.map_cons, List.filterMap_cons, ih]
      unfold blanks
      rw [List.filter_cons]
      cases hv : schemaAt schema k with
      | none => simp
      | some v => cases hn : isNull v <;> simp [hn]
  obtain ⟨w2, u2, e2, b2⟩ := sudokuUnits_built Prod.fst b1
  obtain ⟨w3, u3, e3, b3⟩ := sudokuUnits_built Prod.snd b2
  obtain ⟨w4, u4, e4, b4⟩ := sudokuUnits_built Cell.block b3
  refine ⟨w4, ?_, b4.congr (fun σ _ => by simp [and_assoc])⟩
  unfold sudokuBuild
  simp only [Api.bind_apply, Api.lift, hchk, e1, hvars, e2, e3, e4]
  rfl

end Satisfy
