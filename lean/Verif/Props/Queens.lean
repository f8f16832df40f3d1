import Verif.Lemmas.Queens
import Mathlib.Data.Fintype.EquivFin
/-!
# Queens: C36
-/

namespace Satisfy.Props
open Satisfy

/-- There is a queen at row `r`, column `c`. -/
def Queen (B : List (List Int)) (r c : Nat) : Prop := ∃ row, B[r]? = some row ∧ row[c]? = some 1

/-- Specification: an `n × n` board of zeros and ones, one queen in every row and every column, no two on a diagonal. -/
structure QueensBoard (n : Nat) (B : List (List Int)) : Prop where
  rows : B.length = n
  cols : ∀ row ∈ B, row.length = n
  cells : ∀ row ∈ B, ∀ v ∈ row, v = 0 ∨ v = 1
  row : ∀ r < n, ∃! c, Queen B r c
  col : ∀ c < n, ∃! r, Queen B r c
  diag : ∀ r c r' c', Queen B r c → Queen B r' c' → r ≠ r' → ((r : Int) - r').natAbs ≠ ((c : Int) - c').natAbs

/-- The board with the queen of row `r` at column `f r`. -/
def boardOf (n : Nat) (f : Nat → Nat) : List (List Int) := (List.range n).map (fun r => (List.replicate n 0).set (f r) 1)

theorem queen_boardOf {n : Nat} {f : Nat → Nat} (hf : ∀ r < n, f r < n) (r c : Nat) :
    Queen (boardOf n f) r c ↔ r < n ∧ c = f r := by
  unfold Queen boardOf
  by_cases hr : r < n
  · simp only [List.getElem?_map, List.getElem?_range hr, Option.map_some, Option.some.injEq, exists_eq_left', hr, true_and]
    rw [List.getElem?_set]
    have := hf r hr
    by_cases hc : f r = c
    · simp [hc, hc ▸ this]
    · simp only [hc, if_false]
      constructor
      · intro h
        rw [List.getElem?_replicate] at h
        split at h <;> simp at h
      · intro h; exact absurd h.symm hc
  · simp [hr]

theorem queensFill_ok {n : Nat} {σ : Subst} {f : Nat → Nat} (hf : ∀ r < n, f r < n)
    (hσ : ∀ r < n, Dict.get? σ (qname (.q r)) = some (f r : Int)) :
    queensDecode n ((List.range n).map (fun r => .var (qname (.q r)))) σ = .ok (boardOf n f) := by
  have gen : ∀ (k m : Nat), k + m = n → queensFill σ k ((List.range' k m).map (fun r => .var (qname (.q r))))
      ((List.range k).map (fun r => (List.replicate n (0 : Int)).set (f r) 1) ++ List.replicate m (List.replicate n 0)) = .ok (boardOf n f) := by
    intro k m
    induction m generalizing k with
    | zero => intro h; simp at h; subst h; simp [queensFill, boardOf]
    | succ m ih =>
      intro h
      rw [List.range'_succ, List.map_cons, queensFill]
      rw [show (Expr.var (qname (.q k))).name = qname (.q k) from rfl, Subst.at_ok (hσ k (by omega)), ok_bind,
        listAt_nat (by simp), ok_bind]
      have h1 : ((List.range k).map (fun r => (List.replicate n (0 : Int)).set (f r) 1) ++ List.replicate (m + 1) (List.replicate n 0))[k]'(by simp)
          = List.replicate n 0 := by
        rw [List.getElem_append_right (by simp)]; simp
      rw [h1, listSet_nat (by simp; exact hf k (by omega)), ok_bind, listSet_nat (by simp), ok_bind]
      have h2 : ((List.range k).map (fun r => (List.replicate n (0 : Int)).set (f r) 1) ++ List.replicate (m + 1) (List.replicate n 0)).set k
          ((List.replicate n 0).set (f k) 1) =
          (List.range (k + 1)).map (fun r => (List.replicate n (0 : Int)).set (f r) 1) ++ List.replicate m (List.replicate n 0) := by
        rw [List.set_append_right _ _ (by simp), List.range_succ]
        simp [List.replicate_succ]
      rw [h2]
      exact ih (k + 1) (by omega)
  have := gen 0 n (by omega)
  simpa [queensDecode, List.range_eq_range'] using this

theorem boardOf_inj {n : Nat} {f g : Nat → Nat} (hf : ∀ r < n, f r < n) (hg : ∀ r < n, g r < n) (h : boardOf n f = boardOf n g) :
    ∀ r < n, f r = g r := by
  intro r hr
  have := (queen_boardOf hf r (f r)).2 ⟨hr, rfl⟩
  rw [h, queen_boardOf hg] at this
  exact this.2

/-- What the constraints say about the columns of the queens. -/
theorem queens_valid {n : Nat} {f : Nat → Nat} (hf : ∀ r < n, f r < n)
    (h1 : ∀ r < n, ∀ r' < n, r ≠ r' → f r ≠ f r')
    (h2 : ∀ c < n, ∀ c' < n, c ≠ c' → (f c : Int) + c ≠ f c' + c')
    (h3 : ∀ c < n, ∀ c' < n, c ≠ c' → (f c : Int) - c ≠ f c' - c') : QueensBoard n (boardOf n f) where
  rows := by simp [boardOf]
  cols := by intro row h; obtain ⟨r, _, rfl⟩ := List.mem_map.1 h; simp
  cells := by
    intro row h v hv
    obtain ⟨r, _, rfl⟩ := List.mem_map.1 h
    rcases List.mem_or_eq_of_mem_set hv with h | h
    · exact .inl (List.eq_of_mem_replicate h)
    · exact .inr h
  row := by
    intro r hr
    exact ⟨f r, (queen_boardOf hf _ _).2 ⟨hr, rfl⟩, fun c hc => ((queen_boardOf hf _ _).1 hc).2⟩
  col := by
    intro c hc
    have hinj : Function.Injective (fun r : Fin n => (⟨f r, hf r r.2⟩ : Fin n)) := by
      intro a b hab
      by_contra hne
      exact h1 a a.2 b b.2 (fun e => hne (Fin.ext e)) (by simpa using hab)
    obtain ⟨r, hr⟩ := (Finite.injective_iff_surjective.1 hinj) ⟨c, hc⟩
    have hr : f r = c := by simpa using hr
    refine ⟨r, (queen_boardOf hf _ _).2 ⟨r.2, hr.symm⟩, fun r' h' => ?_⟩
    obtain ⟨h5, h6⟩ := (queen_boardOf hf _ _).1 h'
    by_contra hne
    exact h1 r' h5 r r.2 hne (by rw [hr, h6])
  diag := by
    intro r c r' c' hq hq' hne habs
    obtain ⟨h5, rfl⟩ := (queen_boardOf hf _ _).1 hq
    obtain ⟨h6, rfl⟩ := (queen_boardOf hf _ _).1 hq'
    have := h2 r h5 r' h6 hne
    have := h3 r h5 r' h6 hne
    omega

theorem queens_encode {n : Nat} {B : List (List Int)} (h : QueensBoard n B) :
    ∃ f : Nat → Nat, (∀ r < n, f r < n) ∧ B = boardOf n f ∧ (∀ r < n, ∀ r' < n, r ≠ r' → f r ≠ f r') ∧
      (∀ c < n, ∀ c' < n, c ≠ c' → (f c : Int) + c ≠ f c' + c') ∧ (∀ c < n, ∀ c' < n, c ≠ c' → (f c : Int) - c ≠ f c' - c') := by
  have : ∀ r, ∃ c, r < n → Queen B r c := by
    intro r
    by_cases hr : r < n
    · obtain ⟨c, hc, _⟩ := h.row r hr; exact ⟨c, fun _ => hc⟩
    · exact ⟨0, fun h => absurd h hr⟩
  obtain ⟨f, hf⟩ := Classical.axiomOfChoice this
  have hlt : ∀ r < n, f r < n := by
    intro r hr
    obtain ⟨row, h1, h2⟩ := hf r hr
    rw [← h.cols row (List.mem_of_getElem? h1)]
    exact (List.getElem?_eq_some_iff.1 h2).1
  refine ⟨f, hlt, ?_, ?_, ?_, ?_⟩
  · apply List.ext_getElem?
    intro r
    by_cases hr : r < n
    · obtain ⟨row, h1, h2⟩ := hf r hr
      rw [h1, boardOf, List.getElem?_map, List.getElem?_range hr]
      simp only [Option.map_some, Option.some.injEq]
      have hmem := List.mem_of_getElem? h1
      have hlen := h.cols row hmem
      apply List.ext_getElem?
      intro c
      by_cases hc : c < n
      · rw [List.getElem?_set]
        by_cases hfc : f r = c
        · simp [hfc, hc, ← hfc ▸ h2]
        · rw [if_neg hfc, List.getElem?_replicate, if_pos hc]
          rcases h.cells row hmem row[c] (List.getElem_mem _) with h3 | h3
          · simp [hlen, hc, h3]
          · obtain ⟨c0, _, hu⟩ := h.row r hr
            exact absurd ((hu _ (hf r hr)).trans (hu c ⟨row, h1, by simp [hlen, hc, h3]⟩).symm) hfc
      · rw [List.getElem?_eq_none (by omega), List.getElem?_eq_none (by simp; omega)]
    · have := h.rows
      rw [List.getElem?_eq_none (by omega), List.getElem?_eq_none (by simp [boardOf]; omega)]
  · intro r hr r' hr' hne he
    obtain ⟨r0, _, hu⟩ := h.col (f r) (hlt r hr)
    exact hne ((hu r (hf r hr)).trans (hu r' (by simpa only [he] using hf r' hr')).symm)
  · intro r hr r' hr' hne he
    have := h.diag r (f r) r' (f r') (hf r hr) (hf r' hr') hne
    omega
  · intro r hr r' hr' hne he
    have := h.diag r (f r) r' (f r') (hf r hr) (hf r' hr') hne
    omega

theorem mem_qRows {n : Nat} {rs : List Nat} {i : QVar} : i ∈ qRows n rs ↔ ∃ r ∈ rs, ∃ c < n, i = .ul r c ∨ i = .ur r c := by
  simp [qRows, mem_qCells]

theorem qVars_nodup (n : Nat) : ((qQueens n ++ qRows n (List.range n)).map qname).Nodup := by
  refine List.Nodup.map (fun i j h => qname_inj h) ?_
  rw [List.nodup_append]
  refine ⟨List.Nodup.map (fun i j h => by cases h; rfl) List.nodup_range, ?_, ?_⟩
  · rw [qRows, List.nodup_flatMap]
    refine ⟨fun r _ => ?_, ?_⟩
    · rw [qCells, List.nodup_flatMap]
      refine ⟨fun c _ => by simp, ?_⟩
      refine List.nodup_range.imp (fun {c c'} hne i hi hj => ?_)
      simp at hi hj
      rcases hi with rfl | rfl <;> rcases hj with hj | hj <;> cases hj <;> exact hne rfl
    · refine List.nodup_range.imp (fun {c c'} hne i hi hj => ?_)
      obtain ⟨a, _, hi⟩ := mem_qCells.1 hi
      obtain ⟨b, _, hj⟩ := mem_qCells.1 hj
      rcases hi with rfl | rfl <;> rcases hj with hj | hj <;> cases hj <;> exact hne rfl
  · intro i hi j hj he
    subst he
    obtain ⟨r, _, rfl⟩ := List.mem_map.1 hi
    obtain ⟨_, _, _, _, h | h⟩ := mem_qRows.1 hj <;> cases h

/-- Missing from the full claim: the empty board, for which nothing is produced (`C36_refuted`). -/
theorem C36_partial (h : Heap) (a : SolveArgs) (hs : ∀ l, (a.shuffle l).Perm l) (ha : a.adds = []) (n : Nat) (hn : 0 < n) :
    ∃ w queens, queensBuild n ⟨.empty, h⟩ = (w, .ok queens) ∧
      PuzzleRun a (puzzleRun a w (queensDecode n queens)) (QueensBoard n) := by
  obtain ⟨w, hw, hb⟩ := queens_built h n
  refine ⟨w, _, hw, ?_⟩
  have hq : ∀ r < n, QVar.q r ∈ qQueens n ++ qRows n (List.range n) := fun r hr => by simp [qQueens, hr]
  have hul : ∀ r < n, ∀ c < n, QVar.ul r c ∈ qQueens n ++ qRows n (List.range n) := fun r hr c hc => by
    rw [List.mem_append, mem_qRows]; exact .inr ⟨r, by simp [hr], c, hc, .inl rfl⟩
  have hur : ∀ r < n, ∀ c < n, QVar.ur r c ∈ qQueens n ++ qRows n (List.range n) := fun r hr c hc => by
    rw [List.mem_append, mem_qRows]; exact .inr ⟨r, by simp [hr], c, hc, .inr rfl⟩
  have hcol : ∀ τ, Exact (tabVars (qQueens n ++ qRows n (List.range n)) qname (qdom n)) τ → ∀ r < n,
      (val τ (qname (.q r))).toNat < n ∧ val τ (qname (.q r)) = ((val τ (qname (.q r))).toNat : Int) ∧
      Dict.get? τ (qname (.q r)) = some ((val τ (qname (.q r))).toNat : Int) := by
    intro τ hτ r hr
    obtain ⟨v, hv, hg⟩ := hτ.val (hq r hr)
    have := mem_pyRange.1 (show v ∈ pyRange 0 n from hv)
    rw [val_eq hg, hg]
    refine ⟨by omega, by omega, by congr 1; omega⟩
  refine hb.puzzle hs ha ?_ ?_ ?_ ?_ ?_
  · cases n with
    | zero => omega
    | succ n => simp [tabVars, qQueens, List.range_succ]
  · intro τ hτ ⟨hC1, hC2⟩
    have hf := hcol τ hτ
    refine ⟨_, queensFill_ok (fun r hr => (hf r hr).1) (fun r hr => (hf r hr).2.2), queens_valid (fun r hr => (hf r hr).1) ?_ ?_ ?_⟩
    · intro r hr r' hr' hne he
      refine hC1 r hr r' hr' hne ?_
      rw [(hf r hr).2.1, (hf r' hr').2.1, he]
    · intro c hc c' hc' hne he
      obtain ⟨g1, g2, _⟩ := hC2 0 hn
      refine g2 c hc c' hc' hne ?_
      rw [(g1 c hc).1, (g1 c' hc').1, (hf c hc).2.1, (hf c' hc').2.1, he]
    · intro c hc c' hc' hne he
      obtain ⟨g1, _, g3⟩ := hC2 0 hn
      refine g3 c hc c' hc' hne ?_
      rw [(g1 c hc).2, (g1 c' hc').2, (hf c hc).2.1, (hf c' hc').2.1, he]
  · intro B hB
    obtain ⟨f, hf, rfl, h1, h2, h3⟩ := queens_encode hB
    let v : QVar → Int := fun
      | .q r => f r
      | .ul _ c => f c + c
      | .ur _ c => f c - c
    have hget : ∀ i ∈ qQueens n ++ qRows n (List.range n),
        Dict.get? (tab (qQueens n ++ qRows n (List.range n)) qname v) (qname i) = some (v i) := fun i hi => tab_get (qVars_nodup n) hi
    refine ⟨tab (qQueens n ++ qRows n (List.range n)) qname v, tab_exact (qVars_nodup n) ?_, ⟨?_, ?_⟩, ?_⟩
    · intro i hi
      rcases List.mem_append.1 hi with hi | hi
      · obtain ⟨r, hr, rfl⟩ := List.mem_map.1 hi
        have := hf r (by simpa using hr)
        exact mem_pyRange.2 ⟨by show (0 : Int) ≤ f r; omega, by show (f r : Int) < n; omega⟩
      · obtain ⟨r, hr, c, hc, rfl | rfl⟩ := mem_qRows.1 hi
        · have := hf c hc
          exact mem_pyRange.2 ⟨by show (0 : Int) ≤ f c + c; omega, by show (f c + c : Int) < 2 * n + 1; omega⟩
        · have := hf c hc
          exact mem_pyRange.2 ⟨by show (-n : Int) ≤ f c - c; omega, by show (f c - c : Int) < n + 1; omega⟩
    · intro r hr r' hr' hne
      rw [val_eq (hget _ (hq r hr)), val_eq (hget _ (hq r' hr'))]
      have := h1 r hr r' hr' hne
      show (f r : Int) ≠ f r'; omega
    · intro r hr
      refine ⟨fun c hc => ?_, ?_, ?_⟩
      · rw [qCell, val_eq (hget _ (hq c hc)), val_eq (hget _ (hul r hr c hc)), val_eq (hget _ (hur r hr c hc))]
        exact ⟨rfl, rfl⟩
      · intro c hc c' hc' hne
        rw [val_eq (hget _ (hul r hr c hc)), val_eq (hget _ (hul r hr c' hc'))]
        exact h2 c hc c' hc' hne
      · intro c hc c' hc' hne
        rw [val_eq (hget _ (hur r hr c hc)), val_eq (hget _ (hur r hr c' hc'))]
        exact h3 c hc c' hc' hne
    · exact queensFill_ok hf (fun r hr => hget _ (hq r hr))
  · intro τ τ' hτ hτ' ⟨_, hC⟩ ⟨_, hC'⟩ hd
    have hf := hcol τ hτ
    have hf' := hcol τ' hτ'
    rw [queensFill_ok (fun r hr => (hf r hr).1) (fun r hr => (hf r hr).2.2),
      queensFill_ok (fun r hr => (hf' r hr).1) (fun r hr => (hf' r hr).2.2)] at hd
    have heq := boardOf_inj (fun r hr => (hf r hr).1) (fun r hr => (hf' r hr).1) (Except.ok.inj hd)
    have hqv : ∀ r < n, val τ (qname (.q r)) = val τ' (qname (.q r)) := by
      intro r hr; rw [(hf r hr).2.1, (hf' r hr).2.1, heq r hr]
    refine hτ.same hτ' (fun x hx => ?_)
    rw [tabVars_keys] at hx
    obtain ⟨i, hi, rfl⟩ := List.mem_map.1 hx
    obtain ⟨u, _, hu⟩ := hτ.val hi
    obtain ⟨u', _, hu'⟩ := hτ'.val hi
    rw [hu, hu', ← val_eq hu, ← val_eq hu']
    congr 1
    rcases List.mem_append.1 hi with hi | hi
    · obtain ⟨r, hr, rfl⟩ := List.mem_map.1 hi
      exact hqv r (by simpa using hr)
    · obtain ⟨r, hr, c, hc, rfl | rfl⟩ := mem_qRows.1 hi
      · rw [((hC r (by simpa using hr)).1 c hc).1, ((hC' r (by simpa using hr)).1 c hc).1, hqv c hc]
      · rw [((hC r (by simpa using hr)).1 c hc).2, ((hC' r (by simpa using hr)).1 c hc).2, hqv c hc]
  · intro τ τ' h
    unfold queensDecode
    generalize List.map (fun r => Expr.var (qname (.q r))) (List.range n) = qs
    generalize List.replicate n (List.replicate n (0 : Int)) = B
    generalize 0 = k
    induction qs generalizing B k with
    | nil => rfl
    | cons q qs ih => simp only [queensFill, h.at, ih]

/-- The full claim. -/
def C36 : Prop := ∀ (n : Nat) (a : SolveArgs), (∀ l, (a.shuffle l).Perm l) → a.adds = [] →
  ∃ w queens, queensBuild n ⟨.empty, heap0⟩ = (w, .ok queens) ∧ PuzzleRun a (puzzleRun a w (queensDecode n queens)) (QueensBoard n)

/-- The empty board is a solution for `n = 0`; it is not produced. -/
theorem C36_refuted : ¬ C36 := by
  intro h
  obtain ⟨w, d, h1, h2⟩ := h 0 { solver := {} } (fun l => .refl _) rfl
  have : w = (queensBuild 0 ⟨.empty, heap0⟩).1 := by rw [h1]
  subst this
  exact not_complete (fun l => .refl _) (by decide) [] ⟨rfl, by simp, by simp, by simp, by simp, by simp [Queen]⟩ rfl rfl h2.toPuzzleAll

/-- The empty board: nothing is produced. -/
theorem C36_zero (h : Heap) (a : SolveArgs) (hs : ∀ l, (a.shuffle l).Perm l) :
    ∃ w queens, queensBuild 0 ⟨.empty, h⟩ = (w, .ok queens) ∧ ∀ k, (puzzleRun a w (queensDecode 0 queens) k).1 = .ok [] := by
  obtain ⟨w, hw, hb⟩ := queens_built h 0
  refine ⟨w, _, hw, puzzle_no_vars hs ?_ _⟩
  rw [hb.pureKeys, tabVars_keys]; rfl

-- one of the two boards of size 4
example : QueensBoard 4 [[0, 1, 0, 0], [0, 0, 0, 1], [1, 0, 0, 0], [0, 0, 1, 0]] := by
  have := queens_valid (n := 4) (f := fun | 0 => 1 | 1 => 3 | 2 => 0 | _ => 2) (by decide) (by decide) (by decide) (by decide)
  exact this

-- the class at work on the smallest board
example : (puzzleRun { solver := {} } (built (queensBuild 1) []).1 (queensDecode 1 (built (queensBuild 1) []).2) 10).1 = .ok [[[1]]] := by
  decide +kernel

end Satisfy.Props
