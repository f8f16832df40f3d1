import Verif.Lemmas.Sudoku
import Mathlib.Data.Fintype.EquivFin
import Mathlib.Tactic.IntervalCases
/-!
# Sudoku: C35
-/

namespace Satisfy.Props
open Satisfy

/-- Among the nine values `f 0 … f 8` each of 1 … 9 occurs once. -/
def OneToNine (f : Nat → Int) : Prop := ∀ v : Int, 1 ≤ v → v ≤ 9 → ∃! k, k < 9 ∧ f k = v

/-- Specification: `B` is a completely filled 9×9 grid that extends the schema and has 1 … 9 once in every row, column and block. -/
def Completion (schema B : List (List (Option Int))) : Prop :=
  ∃ g : Nat → Nat → Int,
    B = (List.range 9).map (fun r => (List.range 9).map (fun c => some (g r c))) ∧
    (∀ (r c : Nat) row v, schema[r]? = some row → row[c]? = some (some v) → v ≠ 0 → g r c = v) ∧
    (∀ r < 9, OneToNine (fun c => g r c)) ∧
    (∀ c < 9, OneToNine (fun r => g r c)) ∧
    (∀ i < 9, OneToNine (fun k => g (3 * (i / 3) + k / 3) (3 * (i % 3) + k % 3)))

/-- Specification: a 9×9 schema of `None` and 0 … 9. -/
structure Schema9 (schema : List (List (Option Int))) : Prop where
  rows : schema.length = 9
  cols : ∀ row ∈ schema, row.length = 9
  entries : ∀ row ∈ schema, ∀ v, some v ∈ row → 0 ≤ v ∧ v ≤ 9

/-- The given digit at row `r`, column `c`. -/
def Given (schema : List (List (Option Int))) (r c : Nat) (v : Int) : Prop :=
  ∃ row, schema[r]? = some row ∧ row[c]? = some (some v) ∧ v ≠ 0

/-- Two cells in the same row, column or block. -/
def Peers (r c r' c' : Nat) : Prop := r = r' ∨ c = c' ∨ (r / 3 = r' / 3 ∧ c / 3 = c' / 3)

/-- The givens do not contradict each other. -/
def NoConflict (schema : List (List (Option Int))) : Prop :=
  ∀ r c r' c' v, Given schema r c v → Given schema r' c' v → Peers r c r' c' → r = r' ∧ c = c'

/-- There is something to fill in. -/
def HasBlank (schema : List (List (Option Int))) : Prop := ∃ row ∈ schema, none ∈ row ∨ some 0 ∈ row

/-- Specification: `B` is a completely filled 9×9 grid of 1 … 9 that extends the schema and in which no blank cell has the value of
another cell in its row, column or block (two givens may have the same value). -/
def Filling (schema B : List (List (Option Int))) : Prop :=
  ∃ g : Nat → Nat → Int,
    B = (List.range 9).map (fun r => (List.range 9).map (fun c => some (g r c))) ∧
    (∀ r c v, Given schema r c v → g r c = v) ∧
    (∀ r < 9, ∀ c < 9, 1 ≤ g r c ∧ g r c ≤ 9) ∧
    ∀ r < 9, ∀ c < 9, ∀ r' < 9, ∀ c' < 9, (¬ ∃ v, Given schema r c v) → Peers r c r' c' → g r c = g r' c' → r = r' ∧ c = c'

/-! ## Each of nine values once -/

theorem oneToNine_iff (f : Nat → Int) :
    OneToNine f ↔ (∀ k < 9, 1 ≤ f k ∧ f k ≤ 9) ∧ ∀ k < 9, ∀ k' < 9, f k = f k' → k = k' := by
  constructor
  · intro h
    have hc : ∀ i : Fin 9, ∃ k : Fin 9, f k = (i : Int) + 1 := by
      intro i
      obtain ⟨k, ⟨hk, hf⟩, _⟩ := h ((i : Int) + 1) (by omega) (by omega)
      exact ⟨⟨k, hk⟩, hf⟩
    obtain ⟨g, hg⟩ := Classical.axiomOfChoice hc
    have hinj : Function.Injective g := by
      intro a b hab
      have h1 := hg a
      have h2 := hg b
      rw [hab, h2] at h1
      exact Fin.ext (by omega)
    have hsurj := Finite.injective_iff_surjective.1 hinj
    have hran : ∀ k < 9, 1 ≤ f k ∧ f k ≤ 9 := by
      intro k hk
      obtain ⟨i, hi⟩ := hsurj ⟨k, hk⟩
      have := hg i
      rw [hi] at this
      have hi2 := i.2
      simp only at this
      omega
    refine ⟨hran, fun k hk k' hk' he => ?_⟩
    obtain ⟨k0, _, hu⟩ := h (f k) (hran k hk).1 (hran k hk).2
    exact (hu k ⟨hk, rfl⟩).trans (hu k' ⟨hk', he.symm⟩).symm
  · rintro ⟨h1, h2⟩ v hv1 hv9
    have hinj : Function.Injective (fun k : Fin 9 => (⟨(f k - 1).toNat, by have := h1 k k.2; omega⟩ : Fin 9)) := by
      intro a b hab
      have ha := h1 a a.2
      have hb := h1 b b.2
      simp only [Fin.mk.injEq] at hab
      exact Fin.ext (h2 a a.2 b b.2 (by omega))
    obtain ⟨k, hk⟩ := (Finite.injective_iff_surjective.1 hinj) ⟨(v - 1).toNat, by omega⟩
    simp only [Fin.mk.injEq] at hk
    have := h1 k k.2
    have hfk : f k = v := by omega
    exact ⟨k, ⟨k.2, hfk⟩, fun k' hk' => h2 k' hk'.1 k k.2 (by rw [hk'.2, hfk])⟩

theorem completion_iff {g : Nat → Nat → Int} :
    ((∀ r < 9, OneToNine (fun c => g r c)) ∧ (∀ c < 9, OneToNine (fun r => g r c)) ∧
      (∀ i < 9, OneToNine (fun k => g (3 * (i / 3) + k / 3) (3 * (i % 3) + k % 3)))) ↔
    (∀ r < 9, ∀ c < 9, 1 ≤ g r c ∧ g r c ≤ 9) ∧
      ∀ r < 9, ∀ c < 9, ∀ r' < 9, ∀ c' < 9, Peers r c r' c' → g r c = g r' c' → r = r' ∧ c = c' := by
  simp only [oneToNine_iff]
  constructor
  · rintro ⟨h1, h2, h3⟩
    refine ⟨fun r hr => (h1 r hr).1, fun r hr c hc r' hr' c' hc' hp he => ?_⟩
    rcases hp with rfl | rfl | ⟨e1, e2⟩
    · exact ⟨rfl, (h1 r hr).2 c hc c' hc' he⟩
    · exact ⟨(h2 c hc).2 r hr r' hr' he, rfl⟩
    · have := (h3 (3 * (r / 3) + c / 3) (by omega)).2 (3 * (r % 3) + c % 3) (by omega) (3 * (r' % 3) + c' % 3) (by omega)
      have a1 : 3 * ((3 * (r / 3) + c / 3) / 3) + (3 * (r % 3) + c % 3) / 3 = r := by omega
      have a2 : 3 * ((3 * (r / 3) + c / 3) % 3) + (3 * (r % 3) + c % 3) % 3 = c := by omega
      have a3 : 3 * ((3 * (r / 3) + c / 3) / 3) + (3 * (r' % 3) + c' % 3) / 3 = r' := by omega
      have a4 : 3 * ((3 * (r / 3) + c / 3) % 3) + (3 * (r' % 3) + c' % 3) % 3 = c' := by omega
      rw [a1, a2, a3, a4] at this
      have := this he
      omega
  · rintro ⟨h1, h2⟩
    refine ⟨fun r hr => ⟨h1 r hr, fun c hc c' hc' he => (h2 r hr c hc r hr c' hc' (.inl rfl) he).2⟩,
      fun c hc => ⟨fun r hr => h1 r hr c hc, fun r hr r' hr' he => (h2 r hr c hc r' hr' c hc (.inr (.inl rfl)) he).1⟩,
      fun i hi => ⟨fun k hk => h1 _ (by omega) _ (by omega), fun k hk k' hk' he => ?_⟩⟩
    have := h2 _ (by omega) _ (by omega) _ (by omega) _ (by omega) (.inr (.inr ⟨by omega, by omega⟩)) he
    omega

/-! ## The model -/

theorem Schema9.shape {schema : List (List (Option Int))} (h : Schema9 schema) : Shape schema := by
  refine ⟨h.rows, h.cols, fun row hr v hv => ?_⟩
  cases v with
  | none => rfl
  | some v => obtain ⟨h1, h2⟩ := h.entries row hr v hv; simp [isAccepted, h1, h2]

theorem sees_iff {k k' : Cell} (hk : k ∈ sudokuCells) (hk' : k' ∈ sudokuCells) : Sees k k' ↔ Peers k.1 k.2 k'.1 k'.2 := by
  obtain ⟨h1, h2⟩ := mem_sudokuCells.1 hk
  obtain ⟨h3, h4⟩ := mem_sudokuCells.1 hk'
  have : k.block = k'.block ↔ (k.1 / 3 = k'.1 / 3 ∧ k.2 / 3 = k'.2 / 3) := by unfold Cell.block; omega
  simp only [Sees, Peers, this]

theorem schemaAt_iff {schema : List (List (Option Int))} {k : Cell} {v : Option Int} :
    schemaAt schema k = some v ↔ ∃ row, schema[k.1]? = some row ∧ row[k.2]? = some v := by
  simp [schemaAt, Option.bind_eq_some_iff]

theorem Given.cell {schema : List (List (Option Int))} (h : Schema9 schema) {r c : Nat} {v : Int} (hg : Given schema r c v) :
    (r, c) ∈ sudokuCells := by
  obtain ⟨row, h1, h2, _⟩ := hg
  have h3 := (List.getElem?_eq_some_iff.1 h1).1
  have h4 := (List.getElem?_eq_some_iff.1 h2).1
  rw [h.rows] at h3
  rw [h.cols row (List.mem_of_getElem? h1)] at h4
  exact mem_sudokuCells.2 ⟨h3, h4⟩

/-- The grid made from the givens and values for the blanks. -/
def fill (schema : List (List (Option Int))) (s : Cell → Int) (r c : Nat) : Int :=
  match schemaAt schema (r, c) with
  | some (some v) => if v = 0 then s (r, c) else v
  | _ => s (r, c)

theorem mem_blanks {schema : List (List (Option Int))} {k : Cell} :
    k ∈ blanks schema sudokuCells ↔ k ∈ sudokuCells ∧ (schemaAt schema k = some none ∨ schemaAt schema k = some (some 0)) := by
  unfold blanks
  rw [List.mem_filter]
  refine and_congr_right (fun _ => ?_)
  cases schemaAt schema k with
  | none => simp
  | some v => cases v <;> simp [isNull]

theorem fill_blank {schema : List (List (Option Int))} {s : Cell → Int} {k : Cell} (hk : k ∈ blanks schema sudokuCells) :
    fill schema s k.1 k.2 = s k := by
  rcases (mem_blanks.1 hk).2 with h | h <;> simp [fill, h]

theorem fill_given {schema : List (List (Option Int))} {s : Cell → Int} {r c : Nat} {v : Int} (hg : Given schema r c v) :
    fill schema s r c = v := by
  obtain ⟨row, h1, h2, h3⟩ := hg
  have : schemaAt schema (r, c) = some (some v) := schemaAt_iff.2 ⟨row, h1, h2⟩
  simp [fill, this, h3]

theorem blank_or_given {schema : List (List (Option Int))} (h : Schema9 schema) {k : Cell} (hk : k ∈ sudokuCells) :
    k ∈ blanks schema sudokuCells ∨ ∃ v, Given schema k.1 k.2 v ∧ 1 ≤ v ∧ v ≤ 9 := by
  obtain ⟨v, hv, _⟩ := h.shape.at hk
  rw [mem_blanks]
  cases v with
  | none => exact .inl ⟨hk, .inl hv⟩
  | some v =>
    by_cases h0 : v = 0
    · exact .inl ⟨hk, .inr (by rw [hv, h0])⟩
    · obtain ⟨row, h1, h2⟩ := schemaAt_iff.1 hv
      have := h.entries row (List.mem_of_getElem? h1) v (List.mem_of_getElem? h2)
      exact .inr ⟨v, ⟨row, h1, h2, h0⟩, by omega, by omega⟩

theorem blank_not_given {schema : List (List (Option Int))} {k : Cell} {v : Int} (hk : k ∈ blanks schema sudokuCells) :
    ¬ Given schema k.1 k.2 v := by
  rintro ⟨row, h1, h2, h3⟩
  have : schemaAt schema k = some (some v) := schemaAt_iff.2 ⟨row, h1, h2⟩
  rcases (mem_blanks.1 hk).2 with h | h <;> rw [this] at h <;> simp at h
  exact h3 h

theorem aget_vars {l : List Cell} {k : Cell} :
    aget (l.map (fun k => (k, Expr.var (sname k)))) k = if k ∈ l then some (.var (sname k)) else none := by
  induction l with
  | nil => rfl
  | cons a l ih =>
    rw [List.map_cons, aget, ih]
    by_cases h : a = k
    · subst h; simp
    · have h' : k ≠ a := fun e => h e.symm
      simp [h, h']

theorem sudokuDecode_ok {schema : List (List (Option Int))} (h : Schema9 schema) {σ : Subst} {s : Cell → Int}
    (hσ : ∀ k ∈ blanks schema sudokuCells, Dict.get? σ (sname k) = some (s k)) :
    sudokuDecode schema ((blanks schema sudokuCells).map (fun k => (k, .var (sname k)))) σ =
      .ok ((List.range 9).map (fun r => (List.range 9).map (fun c => some (fill schema s r c)))) := by
  unfold sudokuDecode
  have hcell : ∀ (r c : Nat) (row : List (Option Int)) (v : Option Int), schema[r]? = some row → row[c]? = some v →
      (match aget ((blanks schema sudokuCells).map (fun k => (k, Expr.var (sname k)))) (r, c) with
        | some x => do return some (← σ.at x.name)
        | none => .ok v : Res (Option Int)) = .ok (some (fill schema s r c)) := by
    intro r c row v h1 h2
    have hk : (r, c) ∈ sudokuCells := by
      have h3 := (List.getElem?_eq_some_iff.1 h1).1
      have h4 := (List.getElem?_eq_some_iff.1 h2).1
      rw [h.rows] at h3
      rw [h.cols row (List.mem_of_getElem? h1)] at h4
      exact mem_sudokuCells.2 ⟨h3, h4⟩
    rw [aget_vars]
    rcases blank_or_given h hk with hb | ⟨u, hu, _⟩
    · rw [if_pos hb]
      have := hσ _ hb
      simp only
      rw [show (Expr.var (sname (r, c))).name = sname (r, c) from rfl, Subst.at_ok this, ok_bind,
        ← fill_blank (s := s) hb]
      rfl
    · rw [if_neg (fun hb => blank_not_given hb hu), fill_given hu]
      obtain ⟨row', g1, g2, _⟩ := hu
      simp only at g1 g2
      rw [h1] at g1; cases g1
      rw [h2] at g2; cases g2
      rfl
  have hrow : ∀ (rp : List (Option Int) × Nat), rp ∈ schema.zipIdx → Res.each (fun cp : Option Int × Nat =>
      match aget ((blanks schema sudokuCells).map (fun k => (k, Expr.var (sname k)))) (rp.2, cp.2) with
        | some x => (do return some (← σ.at x.name) : Res (Option Int))
        | none => .ok cp.1) rp.1.zipIdx = .ok ((List.range 9).map (fun c => some (fill schema s rp.2 c))) := by
    rintro ⟨row, r⟩ hrp
    have h1 : schema[r]? = some row := List.mk_mem_zipIdx_iff_getElem?.1 hrp
    rw [Res.each_ok (g := fun cp : Option Int × Nat => some (fill schema s r cp.2))]
    · congr 1
      have := h.cols row (List.mem_of_getElem? h1)
      rw [show (fun cp : Option Int × Nat => some (fill schema s r cp.2)) = (fun c => some (fill schema s r c)) ∘ Prod.snd from rfl,
        ← List.map_map, List.zipIdx_map_snd, this, List.range_eq_range']
    · rintro ⟨v, c⟩ hcp
      exact hcell r c row v h1 (List.mk_mem_zipIdx_iff_getElem?.1 hcp)
  refine (Res.each_ok (g := fun rp : List (Option Int) × Nat => (List.range 9).map (fun c => some (fill schema s rp.2 c))) hrow).trans ?_
  congr 1
  rw [show (fun rp : List (Option Int) × Nat => (List.range 9).map (fun c => some (fill schema s rp.2 c))) =
    (fun r => (List.range 9).map (fun c => some (fill schema s r c))) ∘ Prod.snd from rfl,
    ← List.map_map, List.zipIdx_map_snd, h.rows, List.range_eq_range']

theorem grid_inj {g g' : Nat → Nat → Int}
    (h : (List.range 9).map (fun r => (List.range 9).map (fun c => some (g r c))) =
      (List.range 9).map (fun r => (List.range 9).map (fun c => some (g' r c)))) : ∀ r < 9, ∀ c < 9, g r c = g' r c := by
  intro r hr c hc
  have h1 := List.map_inj_left.1 h r (by simpa using hr)
  have h2 := List.map_inj_left.1 h1 c (by simpa using hc)
  simpa using h2

/-- What a schema with a blank yields, whether the givens contradict each other or not. -/
theorem C35_fillings (h : Heap) (a : SolveArgs) (hs : ∀ l, (a.shuffle l).Perm l) (ha : a.adds = []) (ord : List Int → List Int) (ho : ∀ l, (ord l).Perm l) (schema : List (List (Option Int)))
    (h9 : Schema9 schema) (hbl : HasBlank schema) :
    ∃ w vars, sudokuBuild ord schema ⟨.empty, h⟩ = (w, .ok vars) ∧
      PuzzleRun a (puzzleRun a w (sudokuDecode schema vars)) (Filling schema) := by
  obtain ⟨w, hw, hb⟩ := sudoku_built h ho h9.shape
  refine ⟨w, _, hw, ?_⟩
  have hsub : ∀ {k}, k ∈ blanks schema sudokuCells → k ∈ sudokuCells := fun hk => (mem_blanks.1 hk).1
  have hnd : ((blanks schema sudokuCells).map sname).Nodup :=
    List.Nodup.map (fun _ _ e => sname_inj e) (sudokuCells_nodup.filter _)
  have hdec : ∀ τ, Exact (tabVars (blanks schema sudokuCells) sname (sudokuDomain ord schema)) τ →
      sudokuDecode schema ((blanks schema sudokuCells).map (fun k => (k, .var (sname k)))) τ =
        .ok ((List.range 9).map (fun r => (List.range 9).map (fun c => some (fill schema (fun k => val τ (sname k)) r c)))) := by
    intro τ hτ
    refine sudokuDecode_ok h9 (fun k hk => ?_)
    obtain ⟨v, _, hg⟩ := hτ.val hk
    rw [hg, val_eq hg]
  -- what the domains and the constraints say about the grid
  have hsem : ∀ s : Cell → Int,
      ((∀ k ∈ blanks schema sudokuCells, s k ∈ sudokuDomain ord schema k) ∧
        (∀ k ∈ blanks schema sudokuCells, ∀ k' ∈ blanks schema sudokuCells, Sees k k' → k ≠ k' → s k ≠ s k')) ↔
      ((∀ r < 9, ∀ c < 9, 1 ≤ fill schema s r c ∧ fill schema s r c ≤ 9) ∧
      ∀ r < 9, ∀ c < 9, ∀ r' < 9, ∀ c' < 9, (¬ ∃ v, Given schema r c v) → Peers r c r' c' → fill schema s r c = fill schema s r' c' → r = r' ∧ c = c') := by
    intro s
    have hcell : ∀ {r c : Nat}, r < 9 → c < 9 → ((r, c) : Cell) ∈ sudokuCells := fun h1 h2 => mem_sudokuCells.2 ⟨h1, h2⟩
    constructor
    · rintro ⟨hd, hu⟩
      refine ⟨fun r hr c hc => ?_, fun r hr c hc r' hr' c' hc' hng hp he => ?_⟩
      · rcases blank_or_given h9 (hcell hr hc) with hk | ⟨v, hv, hv1, hv9⟩
        · have := ((mem_sudokuDomain ho).1 (hd _ hk)).1
          have e := fill_blank (s := s) hk
          simp only at e
          rw [e]; exact this
        · rw [fill_given hv]; exact ⟨hv1, hv9⟩
      · have hsee := (sees_iff (hcell hr hc) (hcell hr' hc')).2 hp
        rcases blank_or_given h9 (hcell hr hc) with hk | ⟨v, hv, hv1, hv9⟩ <;>
          rcases blank_or_given h9 (hcell hr' hc') with hk' | ⟨v', hv', hv1', hv9'⟩
        · have e := fill_blank (s := s) hk
          have e' := fill_blank (s := s) hk'
          simp only at e e'
          by_contra hne
          exact hu _ hk _ hk' hsee (fun e => hne (by simpa using e)) (by rw [← e, ← e']; exact he)
        · have e := fill_blank (s := s) hk
          simp only at e
          rw [e, fill_given hv'] at he
          obtain ⟨row, g1, g2, _⟩ := hv'
          refine absurd (schemaAt_iff.2 ⟨row, g1, g2⟩) (((mem_sudokuDomain ho).1 (hd _ hk)).2 (r', c') (hcell hr' hc') ?_ |> fun h => by rw [he] at h; exact h)
          rcases hsee with h | h | h
          · exact .inl h.symm
          · exact .inr (.inl h.symm)
          · exact .inr (.inr h.symm)
        · exact absurd ⟨v, hv⟩ hng
        · exact absurd ⟨v, hv⟩ hng
    · rintro ⟨hr, hu⟩
      refine ⟨fun k hk => (mem_sudokuDomain ho).2 ⟨?_, fun k' hk' hsee hat => ?_⟩, fun k hk k' hk' hsee hne he => ?_⟩
      · obtain ⟨h1, h2⟩ := mem_sudokuCells.1 (hsub hk)
        have := hr k.1 h1 k.2 h2
        rw [fill_blank hk] at this; exact this
      · obtain ⟨h1, h2⟩ := mem_sudokuCells.1 (hsub hk)
        obtain ⟨h3, h4⟩ := mem_sudokuCells.1 hk'
        by_cases h0 : s k = 0
        · have := hr k.1 h1 k.2 h2
          rw [fill_blank hk] at this; omega
        obtain ⟨row, g1, g2⟩ := schemaAt_iff.1 hat
        have hgiv : Given schema k'.1 k'.2 (s k) := ⟨row, g1, g2, h0⟩
        have := hu k.1 h1 k.2 h2 k'.1 h3 k'.2 h4 (fun ⟨_, hv⟩ => blank_not_given hk hv)
          ((sees_iff (hsub hk) hk').1 (by rcases hsee with h | h | h; exacts [.inl h.symm, .inr (.inl h.symm), .inr (.inr h.symm)]))
          (by rw [fill_given hgiv, fill_blank hk])
        exact blank_not_given hk (by rw [this.1, this.2]; exact hgiv)
      · obtain ⟨h1, h2⟩ := mem_sudokuCells.1 (hsub hk)
        obtain ⟨h3, h4⟩ := mem_sudokuCells.1 (hsub hk')
        have := hu k.1 h1 k.2 h2 k'.1 h3 k'.2 h4 (fun ⟨_, hv⟩ => blank_not_given hk hv) ((sees_iff (hsub hk) (hsub hk')).1 hsee) (by rw [fill_blank hk, fill_blank hk', he])
        exact hne (Prod.ext this.1 this.2)
  have hC : ∀ σ, (sUnit (blanks schema sudokuCells) Prod.fst σ ∧ sUnit (blanks schema sudokuCells) Prod.snd σ ∧
      sUnit (blanks schema sudokuCells) Cell.block σ) ↔
      (∀ k ∈ blanks schema sudokuCells, ∀ k' ∈ blanks schema sudokuCells, Sees k k' → k ≠ k' → val σ (sname k) ≠ val σ (sname k')) := by
    intro σ
    constructor
    · rintro ⟨h1, h2, h3⟩ k hk k' hk' hsee hne
      obtain ⟨b1, b2⟩ := mem_sudokuCells.1 (hsub hk)
      rcases hsee with e | e | e
      · exact h1 k.1 b1 k hk k' hk' rfl e.symm hne
      · exact h2 k.2 b2 k hk k' hk' rfl e.symm hne
      · exact h3 k.block (by unfold Cell.block; omega) k hk k' hk' rfl e.symm hne
    · intro hall
      exact ⟨fun i _ k hk k' hk' e e' hne => hall k hk k' hk' (.inl (e.trans e'.symm)) hne,
        fun i _ k hk k' hk' e e' hne => hall k hk k' hk' (.inr (.inl (e.trans e'.symm))) hne,
        fun i _ k hk k' hk' e e' hne => hall k hk k' hk' (.inr (.inr (e.trans e'.symm))) hne⟩
  refine hb.puzzle hs ha ?_ ?_ ?_ ?_ ?_
  · obtain ⟨row, hrow, hnull⟩ := hbl
    obtain ⟨r, hr, rfl⟩ := List.getElem_of_mem hrow
    have : ∃ k, k ∈ blanks schema sudokuCells := by
      rcases hnull with hn | hn <;> obtain ⟨c, hc, he⟩ := List.getElem_of_mem hn <;>
        have hc' := h9.cols _ hrow <;> have hr' := h9.rows <;>
        refine ⟨(r, c), mem_blanks.2 ⟨mem_sudokuCells.2 ⟨by omega, by omega⟩, ?_⟩⟩
      · exact .inl (schemaAt_iff.2 ⟨schema[r], by simp, by simp [hc, he]⟩)
      · exact .inr (schemaAt_iff.2 ⟨schema[r], by simp, by simp [hc, he]⟩)
    obtain ⟨k, hk⟩ := this
    intro he
    simp only [tabVars, List.map_eq_nil_iff] at he
    rw [he] at hk; simp at hk
  · intro τ hτ hCτ
    refine ⟨_, hdec τ hτ, fill schema (fun k => val τ (sname k)), rfl, ?_, (hsem _).1 ⟨fun k hk => ?_, (hC τ).1 hCτ⟩⟩
    · intro r c v hv
      exact fill_given hv
    · obtain ⟨v, hv, hg⟩ := hτ.val hk
      rw [val_eq hg]; exact hv
  · rintro B ⟨g, rfl, hext, hgood'⟩
    have hfill : ∀ r < 9, ∀ c < 9, fill schema (fun k => g k.1 k.2) r c = g r c := by
      intro r hr c hc
      rcases blank_or_given h9 (mem_sudokuCells.2 ⟨hr, hc⟩ : ((r, c) : Cell) ∈ sudokuCells) with hk | ⟨v, hv, _⟩
      · exact fill_blank (s := fun k => g k.1 k.2) hk
      · rw [fill_given hv]
        exact (hext r c v hv).symm
    have hs' := (hsem (fun k => g k.1 k.2)).2 ⟨fun r hr c hc => by rw [hfill r hr c hc]; exact hgood'.1 r hr c hc,
      fun r hr c hc r' hr' c' hc' hng hp he => by
        rw [hfill r hr c hc, hfill r' hr' c' hc'] at he
        exact hgood'.2 r hr c hc r' hr' c' hc' hng hp he⟩
    have hget : ∀ k ∈ blanks schema sudokuCells, Dict.get? (tab (blanks schema sudokuCells) sname (fun k => g k.1 k.2)) (sname k) = some (g k.1 k.2) :=
      fun k hk => tab_get hnd hk
    have hex := tab_exact (dom := sudokuDomain ord schema) hnd hs'.1
    refine ⟨_, hex, ?_, ?_⟩
    · rw [hC]
      intro k hk k' hk' hsee hne
      rw [val_eq (hget k hk), val_eq (hget k' hk')]
      exact hs'.2 k hk k' hk' hsee hne
    · rw [sudokuDecode_ok h9 hget]
      congr 1
      refine List.map_congr_left (fun r hr => List.map_congr_left (fun c hc => ?_))
      rw [hfill r (by simpa using hr) c (by simpa using hc)]
  · intro τ τ' hτ hτ' _ _ hd
    rw [hdec τ hτ, hdec τ' hτ'] at hd
    have heq := grid_inj (Except.ok.inj hd)
    refine hτ.same hτ' (fun x hx => ?_)
    rw [tabVars_keys] at hx
    obtain ⟨k, hk, rfl⟩ := List.mem_map.1 hx
    obtain ⟨u, _, hu⟩ := hτ.val hk
    obtain ⟨u', _, hu'⟩ := hτ'.val hk
    obtain ⟨h1, h2⟩ := mem_sudokuCells.1 (hsub hk)
    have := heq k.1 h1 k.2 h2
    rw [fill_blank hk, fill_blank hk] at this
    rw [hu, hu', ← val_eq hu, ← val_eq hu', this]
  · intro τ τ' h
    unfold sudokuDecode
    simp only [h.at]

/-- Where the givens do not contradict each other, the fillings are the completions. -/
theorem filling_iff {schema : List (List (Option Int))} (h9 : Schema9 schema) (hno : NoConflict schema) {B : List (List (Option Int))} :
    Filling schema B ↔ Completion schema B := by
  refine exists_congr (fun g => and_congr_right (fun _ => ?_))
  rw [completion_iff]
  constructor
  · rintro ⟨hext, hrng, hu⟩
    refine ⟨fun r c row v h1 h2 h3 => hext r c v ⟨row, h1, h2, h3⟩, hrng, fun r hr c hc r' hr' c' hc' hp he => ?_⟩
    by_cases h1 : ∃ v, Given schema r c v
    · by_cases h2 : ∃ v, Given schema r' c' v
      · obtain ⟨v, hv⟩ := h1
        obtain ⟨v', hv'⟩ := h2
        rw [hext _ _ _ hv, hext _ _ _ hv'] at he
        subst he
        exact hno r c r' c' v hv hv' hp
      · have hp' : Peers r' c' r c := by
          rcases hp with h | h | ⟨h, h'⟩
          exacts [.inl h.symm, .inr (.inl h.symm), .inr (.inr ⟨h.symm, h'.symm⟩)]
        have := hu r' hr' c' hc' r hr c hc h2 hp' he.symm
        exact ⟨this.1.symm, this.2.symm⟩
    · exact hu r hr c hc r' hr' c' hc' h1 hp he
  · rintro ⟨hext, hrng, hu⟩
    exact ⟨fun r c v ⟨row, h1, h2, h3⟩ => hext r c row v h1 h2 h3, hrng, fun r hr c hc r' hr' c' hc' _ => hu r hr c hc r' hr' c' hc'⟩

/-- Missing from the full claim: schemas whose givens contradict each other (`C35_refuted`) and schemas without blanks
(`C35_refuted_full`). -/
theorem C35_partial (h : Heap) (a : SolveArgs) (hs : ∀ l, (a.shuffle l).Perm l) (ha : a.adds = []) (ord : List Int → List Int) (ho : ∀ l, (ord l).Perm l) (schema : List (List (Option Int)))
    (h9 : Schema9 schema) (hno : NoConflict schema) (hbl : HasBlank schema) :
    ∃ w vars, sudokuBuild ord schema ⟨.empty, h⟩ = (w, .ok vars) ∧
      PuzzleRun a (puzzleRun a w (sudokuDecode schema vars)) (Completion schema) := by
  obtain ⟨w, vars, hw, hr⟩ := C35_fillings h a hs ha ord ho schema h9 hbl
  have : Filling schema = Completion schema := funext (fun _ => propext (filling_iff h9 hno))
  exact ⟨w, vars, hw, this ▸ hr⟩

/-- A schema without blanks yields nothing, right or wrong. -/
theorem C35_no_blank (h : Heap) (a : SolveArgs) (hs : ∀ l, (a.shuffle l).Perm l) (ord : List Int → List Int) (ho : ∀ l, (ord l).Perm l) (schema : List (List (Option Int)))
    (h9 : Schema9 schema) (hbl : ¬ HasBlank schema) :
    ∃ w vars, sudokuBuild ord schema ⟨.empty, h⟩ = (w, .ok vars) ∧ ∀ n, (puzzleRun a w (sudokuDecode schema vars) n).1 = .ok [] := by
  obtain ⟨w, hw, hb⟩ := sudoku_built h ho h9.shape
  refine ⟨w, _, hw, puzzle_no_vars hs ?_ _⟩
  have : blanks schema sudokuCells = [] := by
    rw [List.eq_nil_iff_forall_not_mem]
    intro k hk
    obtain ⟨_, h1⟩ := mem_blanks.1 hk
    refine hbl ?_
    rcases h1 with h1 | h1 <;> obtain ⟨row, g1, g2⟩ := schemaAt_iff.1 h1
    · exact ⟨row, List.mem_of_getElem? g1, .inl (List.mem_of_getElem? g2)⟩
    · exact ⟨row, List.mem_of_getElem? g1, .inr (List.mem_of_getElem? g2)⟩
  rw [hb.pureKeys, tabVars_keys, this]; rfl

/-- A schema is accepted exactly when it has nine rows of nine entries out of `None` and 0 … 9. -/
theorem C35_rejects (h : Heap) (ord : List Int → List Int) (ho : ∀ l, (ord l).Perm l) (schema : List (List (Option Int))) :
    (∃ w vars, sudokuBuild ord schema ⟨.empty, h⟩ = (w, .ok vars)) ↔ Schema9 schema := by
  constructor
  · rintro ⟨w, vars, hw⟩
    unfold sudokuBuild at hw
    cases hc : sudokuCheck schema with
    | error e => simp [Api.bind_apply, Api.lift, hc] at hw
    | ok u =>
      obtain ⟨h1, h2⟩ := sudokuCheck_iff.1 hc
      refine ⟨h1, fun row hrow => ?_, fun row hrow v hv => ?_⟩
      · have hle := (h2 row hrow).1
        by_contra hne
        obtain ⟨r, hr, rfl⟩ := List.getElem_of_mem hrow
        have hat : schemaAt schema (r, schema[r].length) = none := by simp [schemaAt, hr]
        have herr : ∀ w, sudokuCell ord schema (r, schema[r].length) w = (w, .error .attributeError) := by
          intro w; unfold sudokuCell; rw [hat]; rfl
        have heach : ∀ (l : List Cell) (w : World), (r, schema[r].length) ∈ l → ∃ w' e, Api.each (sudokuCell ord schema) l w = (w', .error e) := by
          intro l
          induction l with
          | nil => intro w hm; simp at hm
          | cons k l ih =>
            intro w hm
            simp only [Api.each, Api.bind_apply]
            rcases hk : sudokuCell ord schema k w with ⟨w1, e | x⟩
            · exact ⟨w1, e, rfl⟩
            · rcases List.mem_cons.1 hm with rfl | hm
              · rw [herr] at hk; cases hk
              · obtain ⟨w', e, he⟩ := ih w1 hm
                exact ⟨w', e, by simp [he]⟩
        obtain ⟨w', e, he⟩ := heach sudokuCells ⟨.empty, h⟩ (mem_sudokuCells.2 ⟨by simp only; omega, by simp only; omega⟩)
        simp [Api.bind_apply, Api.lift, hc, he] at hw
      · have := (h2 row hrow).2 _ hv
        simpa [isAccepted] using this
  · intro h9
    obtain ⟨w, hw, _⟩ := sudoku_built h ho h9.shape
    exact ⟨w, _, hw⟩

/-- The entry at row `r` and column `c` cannot be used: it is not one of `None` and 0 … 9, or the row is too long. -/
def Fault (schema : List (List (Option Int))) (r c : Nat) (e : Err) : Prop :=
  ∃ row v, schema[r]? = some row ∧ row[c]? = some v ∧
    ((e = .valueError ∧ ∃ n, v = some n ∧ ¬ (0 ≤ n ∧ n ≤ 9)) ∨ (e = .indexError ∧ 9 ≤ c ∧ ∀ n, v = some n → 0 ≤ n ∧ n ≤ 9))

theorem accepted_iff {v : Option Int} : isAccepted v = true ↔ ∀ n, v = some n → 0 ≤ n ∧ n ≤ 9 := by
  cases v <;> simp [isAccepted]

theorem res_each_first {α β : Type} {f : α → Res β} {g : α → β} {pre post : List α} {x : α} {e : Err} (hpre : ∀ y ∈ pre, f y = .ok (g y)) (hx : f x = .error e) :
    Res.each f (pre ++ x :: post) = .error e := by
  induction pre with
  | nil => simp [Res.each, hx]
  | cons y pre ih => simp [Res.each, hpre y (by simp), ih (fun z hz => hpre z (by simp [hz]))]

theorem split_at {α : Type} {l : List α} {i : Nat} {x : α} (h : l[i]? = some x) : ∃ pre post, l = pre ++ x :: post ∧ pre.length = i := by
  obtain ⟨hi, rfl⟩ := List.getElem?_eq_some_iff.1 h
  exact ⟨l.take i, l.drop (i + 1), by rw [List.getElem_cons_drop, List.take_append_drop], by simp; omega⟩

/-- What is raised for a schema that is not accepted. The entries are looked at row by row, and the first one that cannot be used counts. Rows that are too short are noticed only if there is no such
entry. -/
theorem C35_errors (h : Heap) (ord : List Int → List Int) (ho : ∀ l, (ord l).Perm l) (schema : List (List (Option Int))) :
    (schema.length ≠ 9 → sudokuBuild ord schema ⟨.empty, h⟩ = (⟨.empty, h⟩, .error .valueError)) ∧
    (∀ r c e, schema.length = 9 → Fault schema r c e → (∀ r' c' e', r' < r ∨ (r' = r ∧ c' < c) → ¬ Fault schema r' c' e') →
      sudokuBuild ord schema ⟨.empty, h⟩ = (⟨.empty, h⟩, .error e)) ∧
    (schema.length = 9 → (∀ r c e, ¬ Fault schema r c e) → (∃ row ∈ schema, row.length < 9) →
      ∃ w, sudokuBuild ord schema ⟨.empty, h⟩ = (w, .error .attributeError)) := by
  have raises : ∀ e, sudokuCheck schema = .error e → sudokuBuild ord schema ⟨.empty, h⟩ = (⟨.empty, h⟩, .error e) := by
    intro e he
    unfold sudokuBuild
    simp [Api.bind_apply, Api.lift, he]
  -- an entry that is no fault
  have fine : ∀ {r c row v}, schema[r]? = some row → row[c]? = some v → (∀ e, ¬ Fault schema r c e) → isAccepted v = true ∧ c < 9 := by
    intro r c row v h1 h2 hno
    have ha : isAccepted v = true := by
      rw [accepted_iff]
      intro n hn
      by_contra hc
      exact hno .valueError ⟨row, v, h1, h2, .inl ⟨rfl, n, hn, hc⟩⟩
    refine ⟨ha, ?_⟩
    by_contra hc
    exact hno .indexError ⟨row, v, h1, h2, .inr ⟨rfl, by omega, accepted_iff.1 ha⟩⟩
  refine ⟨fun hl => raises _ (by simp [sudokuCheck, hl]), fun r c e hl hf hfirst => raises _ ?_, fun hl hno hshort => ?_⟩
  · obtain ⟨row, v, h1, h2, h3⟩ := hf
    have hentry : (if (!isAccepted v) = true then .error .valueError else if c ≥ 9 then (.error .indexError : Res Unit) else .ok ()) = .error e := by
      rcases h3 with ⟨rfl, n, rfl, hn⟩ | ⟨rfl, hc, hv⟩
      · rw [if_pos]
        have : ¬ isAccepted (some n) = true := by rw [accepted_iff]; exact fun h => hn (h n rfl)
        simpa using this
      · rw [if_neg (by simp [accepted_iff.2 hv]), if_pos hc]
    obtain ⟨pre, post, rfl, hpre⟩ := split_at h1
    obtain ⟨rpre, rpost, rfl, hrpre⟩ := split_at h2
    unfold sudokuCheck
    rw [if_neg (by simpa using hl)]
    rw [res_each_first (g := fun row => row.map fun _ => ()) (e := e)]
    · rfl
    · intro y hy
      obtain ⟨i, hi, rfl⟩ := List.getElem_of_mem hy
      rw [Res.each_ok (g := fun _ => ())]
      · rw [List.map_const', List.map_const', List.length_zipIdx]
      · rintro ⟨v', j⟩ hv'
        rw [List.mk_mem_zipIdx_iff_getElem?] at hv'
        obtain ⟨a1, a2⟩ := fine (r := i) (c := j) (row := pre[i]) (v := v') (by rw [List.getElem?_append_left hi]; simp) hv' (fun e' => hfirst _ _ _ (.inl (by omega)))
        rw [if_neg (by simp [a1]), if_neg (by simpa using a2)]
    · rw [List.zipIdx_append, List.zipIdx_cons]
      refine res_each_first (g := fun _ => ()) ?_ (by simpa [hrpre] using hentry)
      rintro ⟨v', j⟩ hv'
      rw [List.mk_mem_zipIdx_iff_getElem?] at hv'
      have hj : j < rpre.length := (List.getElem?_eq_some_iff.1 hv').1
      obtain ⟨a1, a2⟩ := fine (r := r) (c := j) (v := v') h1 (by rw [List.getElem?_append_left hj]; exact hv') (fun e' => hfirst _ _ _ (.inr ⟨rfl, by omega⟩))
      rw [if_neg (by simp [a1]), if_neg (by simpa using a2)]
  · have hchk : sudokuCheck schema = .ok () := by
      refine sudokuCheck_iff.2 ⟨hl, fun row hr => ?_⟩
      obtain ⟨r, hr, rfl⟩ := List.getElem_of_mem hr
      refine ⟨?_, fun v hv => ?_⟩
      · by_contra hc
        have := (fine (r := r) (c := 9) (row := schema[r]) (v := schema[r][9]) (by simp) (by simp) (hno _ _)).2
        omega
      · obtain ⟨c, hc, rfl⟩ := List.getElem_of_mem hv
        exact (fine (r := r) (c := c) (row := schema[r]) (v := schema[r][c]) (by simp) (by simp) (hno _ _)).1
    -- the first cell that is missing
    have hmiss : ∃ k ∈ sudokuCells, schemaAt schema k = none := by
      obtain ⟨row, hrow, hlt⟩ := hshort
      obtain ⟨r, hr, rfl⟩ := List.getElem_of_mem hrow
      exact ⟨(r, schema[r].length), mem_sudokuCells.2 ⟨by simp only; omega, by simpa using hlt⟩, by simp [schemaAt, hr]⟩
    have hsplit : ∃ pre k post, sudokuCells = pre ++ k :: post ∧ schemaAt schema k = none ∧ ∀ k' ∈ pre, schemaAt schema k' ≠ none := by
      revert hmiss
      generalize sudokuCells = cells
      induction cells with
      | nil => rintro ⟨k, hk, _⟩; simp at hk
      | cons k cells ih =>
        rintro ⟨k', hk', hn⟩
        by_cases hk : schemaAt schema k = none
        · exact ⟨[], k, cells, rfl, hk, by simp⟩
        · rcases List.mem_cons.1 hk' with rfl | hk'
          · exact absurd hn hk
          obtain ⟨pre, k2, post, h1, h2, h3⟩ := ih ⟨k', hk', hn⟩
          exact ⟨k :: pre, k2, post, by rw [h1]; rfl, h2, by
            intro k3 h; rcases List.mem_cons.1 h with rfl | h
            · exact hk
            · exact h3 _ h⟩
    obtain ⟨pre, k, post, hcells, hk, hpre⟩ := hsplit
    obtain ⟨w1, e1, _⟩ := sudoku_cells h ho (schema := schema) (cells := pre) ((List.nodup_append.1 (hcells ▸ sudokuCells_nodup)).1) hpre
    have heach : Api.each (sudokuCell ord schema) (pre ++ k :: post) ⟨.empty, h⟩ = (w1, .error .attributeError) :=
      Api.each_first (by unfold sudokuCell; rw [hk]; rfl) e1
    refine ⟨w1, ?_⟩
    unfold sudokuBuild
    simp only [Api.bind_apply, Api.lift, hchk, hcells, heach]

/-! The first fault counts: an entry 12 in row 1, a tenth entry in row 0, both, and a short row. -/

example : Fault ([some 12] :: List.replicate 8 []) 0 0 .valueError := ⟨[some 12], some 12, rfl, rfl, .inl ⟨rfl, 12, rfl, by decide⟩⟩

example : (sudokuBuild id (List.replicate 10 none :: [some 12] :: List.replicate 7 []) ⟨.empty, heap0⟩).2.toOption.isNone = true ∧
    sudokuCheck (List.replicate 10 none :: [some 12] :: List.replicate 7 []) = .error .indexError ∧
    sudokuCheck ([some 12] :: List.replicate 10 none :: List.replicate 7 []) = .error .valueError ∧
    sudokuCheck (List.replicate 9 []) = .ok () := by decide +kernel

/-- The full claim. -/
def C35 : Prop := ∀ (schema : List (List (Option Int))) (a : SolveArgs), Schema9 schema → (∀ l, (a.shuffle l).Perm l) → a.adds = [] →
  ∃ w vars, sudokuBuild id schema ⟨.empty, heap0⟩ = (w, .ok vars) ∧
    PuzzleRun a (puzzleRun a w (sudokuDecode schema vars)) (Completion schema)

/-- A solved sudoku; `x` and `y` are the entries at the corners. -/
def grid9 (x y : Option Int) : List (List (Option Int)) :=
  [[x, some 2, some 3, some 4, some 5, some 6, some 7, some 8, some 9],
   [some 4, some 5, some 6, some 7, some 8, some 9, some 1, some 2, some 3],
   [some 7, some 8, some 9, some 1, some 2, some 3, some 4, some 5, some 6],
   [some 2, some 3, some 4, some 5, some 6, some 7, some 8, some 9, some 1],
   [some 5, some 6, some 7, some 8, some 9, some 1, some 2, some 3, some 4],
   [some 8, some 9, some 1, some 2, some 3, some 4, some 5, some 6, some 7],
   [some 3, some 4, some 5, some 6, some 7, some 8, some 9, some 1, some 2],
   [some 6, some 7, some 8, some 9, some 1, some 2, some 3, some 4, some 5],
   [some 9, some 1, some 2, some 3, some 4, some 5, some 6, some 7, y]]

theorem grid9_completion (x y : Option Int) (hx : x = none ∨ x = some 1) (hy : y = none ∨ y = some 8) :
    Completion (grid9 x y) (grid9 (some 1) (some 8)) := by
  refine ⟨fun r c => (((3 * (r % 3) + r / 3 + c) % 9 + 1 : Nat) : Int), by decide, ?_, completion_iff.2 ⟨?_, ?_⟩⟩
  · intro r c row v h1 h2 h3
    have hr := (List.getElem?_eq_some_iff.1 h1).1
    have hc := (List.getElem?_eq_some_iff.1 h2).1
    have : row.length = 9 := by
      have := List.mem_of_getElem? h1
      simp only [grid9, List.mem_cons, List.not_mem_nil, or_false] at this
      rcases this with h | h | h | h | h | h | h | h | h <;> subst h <;> rfl
    rw [show (grid9 x y).length = 9 from rfl] at hr
    rw [this] at hc
    have key : ((grid9 x y)[r]?.bind (fun row => row[c]?)) = some (some v) := by simp [h1, h2]
    clear h1 h2 this
    interval_cases r <;> interval_cases c <;> rcases hx with rfl | rfl <;> rcases hy with rfl | rfl <;> simp [grid9] at key ⊢ <;> exact key
  · intro r hr c hc; omega
  · intro r hr c hc r' hr' c' hc' hp he
    unfold Peers at hp
    clear hx hy
    interval_cases r <;> interval_cases r' <;> omega

theorem grid9_wrong : (puzzleRun { solver := {} } (built (sudokuBuild id (grid9 none (some 9))) []).1
    (sudokuDecode (grid9 none (some 9)) (built (sudokuBuild id (grid9 none (some 9))) []).2) 8).1 = .ok [grid9 (some 1) (some 9)] := by
  decide +kernel

theorem grid9_full : (built (sudokuBuild id (grid9 (some 1) (some 8))) []).1.model.pureVars.keys = [] := by
  decide +kernel

/-- The givens at the two ends of the last row are equal; nevertheless a grid is produced. -/
theorem C35_refuted : ¬ C35 := by
  intro h
  obtain ⟨w, vars, h1, h2⟩ := h (grid9 none (some 9)) { solver := {} } (by
    refine ⟨rfl, by decide, fun row hrow v hv => ?_⟩
    have key : ∀ row ∈ grid9 none (some 9), ∀ v ∈ row, isAccepted v = true := by decide
    simpa [isAccepted] using key row hrow _ hv) (fun l => .refl _) rfl
  obtain ⟨L, h3, h4⟩ := h2.sound 8
  have key := grid9_wrong
  rw [built_eq h1] at key
  obtain rfl := Except.ok.inj (key.symm.trans h3)
  obtain ⟨g, g1, _, g2, _⟩ := h4 _ List.mem_cons_self
  have e1 : g 8 0 = 9 := by
    have := congrArg (fun B : List (List (Option Int)) => B[8]?.bind (fun row => row[0]?)) g1
    simpa [grid9] using this.symm
  have e2 : g 8 8 = 9 := by
    have := congrArg (fun B : List (List (Option Int)) => B[8]?.bind (fun row => row[8]?)) g1
    simpa [grid9] using this.symm
  have := ((oneToNine_iff _).1 (g2 8 (by omega))).2 0 (by omega) 8 (by omega) (by rw [e1, e2])
  omega

/-- A completely filled correct grid is its own completion; it is not produced. -/
theorem C35_refuted_full : ¬ C35 := by
  intro h
  obtain ⟨w, vars, h1, h2⟩ := h (grid9 (some 1) (some 8)) { solver := {} } (by
    refine ⟨rfl, by decide, fun row hrow v hv => ?_⟩
    have key : ∀ row ∈ grid9 (some 1) (some 8), ∀ v ∈ row, isAccepted v = true := by decide
    simpa [isAccepted] using key row hrow _ hv) (fun l => .refl _) rfl
  have key := grid9_full
  rw [built_eq h1] at key
  exact not_complete (fun l => .refl _) key _ (grid9_completion _ _ (.inr rfl) (.inr rfl)) rfl rfl h2.toPuzzleAll

-- the hypotheses of `C35_partial` on a schema with two blanks, which has a completion
theorem grid9_good : Schema9 (grid9 none none) ∧ NoConflict (grid9 none none) ∧ HasBlank (grid9 none none) ∧
    Completion (grid9 none none) (grid9 (some 1) (some 8)) := by
  have hcomp := grid9_completion none none (.inl rfl) (.inl rfl)
  refine ⟨⟨rfl, by decide, fun row hrow v hv => ?_⟩, ?_, ⟨_, List.mem_cons_self, .inl List.mem_cons_self⟩, hcomp⟩
  · have key : ∀ row ∈ grid9 none none, ∀ v ∈ row, isAccepted v = true := by decide
    simpa [isAccepted] using key row hrow _ hv
  · obtain ⟨g, _, g1, g2⟩ := hcomp
    obtain ⟨_, g3⟩ := completion_iff.1 g2
    have hlt : ∀ r c v, Given (grid9 none none) r c v → r < 9 ∧ c < 9 := by
      rintro r c v ⟨row, h1, h2, _⟩
      have hr := (List.getElem?_eq_some_iff.1 h1).1
      have hc := (List.getElem?_eq_some_iff.1 h2).1
      have : ∀ row ∈ grid9 none none, row.length = 9 := by decide
      rw [this row (List.mem_of_getElem? h1)] at hc
      exact ⟨hr, hc⟩
    intro r c r' c' v hv hv' hp
    obtain ⟨b1, b2⟩ := hlt r c v hv
    obtain ⟨b3, b4⟩ := hlt r' c' v hv'
    obtain ⟨row, a1, a2, a3⟩ := hv
    obtain ⟨row', a1', a2', a3'⟩ := hv'
    exact g3 r b1 c b2 r' b3 c' b4 hp (by rw [g1 r c row v a1 a2 a3, g1 r' c' row' v a1' a2' a3'])

-- the hypotheses of `C35_fillings` on a schema with a conflict
example : Schema9 (grid9 none (some 9)) ∧ HasBlank (grid9 none (some 9)) ∧ ¬ NoConflict (grid9 none (some 9)) := by
  refine ⟨⟨rfl, by decide, fun row hrow v hv => ?_⟩, ⟨_, List.mem_cons_self, .inl List.mem_cons_self⟩, fun h => ?_⟩
  · have key : ∀ row ∈ grid9 none (some 9), ∀ v ∈ row, isAccepted v = true := by decide
    simpa [isAccepted] using key row hrow _ hv
  · have := h 8 0 8 8 9 ⟨_, rfl, rfl, by decide⟩ ⟨_, rfl, rfl, by decide⟩ (.inl rfl)
    omega

-- the hypothesis of `C35_no_blank`
example : ¬ HasBlank (grid9 (some 1) (some 8)) := by unfold HasBlank; decide

end Satisfy.Props
