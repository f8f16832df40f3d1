import Verif.Lemmas.Nonogram
import Verif.SpecPuzzle
/-!
# Nonograms: C38, C39, C40
-/

namespace Satisfy.Props
open Satisfy

/-! ## Positions -/

theorem loose_length {lo N : Int} {L P : List Int} (h : Loose lo N L P) : P.length = L.length := by
  induction L generalizing lo P with
  | nil => cases P with
    | nil => rfl
    | cons p P => exact absurd h (by simp [Loose])
  | cons s L ih => cases P with
    | nil => exact absurd h (by simp [Loose])
    | cons p P => simp [ih h.2.2.2]

theorem lineStart_cons (s : Int) (L : List Int) (j : Nat) : lineStart (s :: L) (j + 1) = s + 1 + lineStart L j := by
  simp [lineStart]; omega

theorem lineRem_cons (s : Int) (L : List Int) (j : Nat) : lineRem (s :: L) (j + 1) = lineRem L j := by
  simp [lineRem]; omega

theorem loose_bounds {lo N : Int} {L P : List Int} (h : Loose lo N L P) : ∀ j < L.length,
    lo + lineStart L j ≤ P.getD j 0 ∧ P.getD j 0 + lineRem L j ≤ N ∧ (j + 1 < L.length → P.getD j 0 + L.getD j 0 < P.getD (j + 1) 0) := by
  induction L generalizing lo P with
  | nil => intro j hj; simp at hj
  | cons s L ih => cases P with
    | nil => exact absurd h (by simp [Loose])
    | cons p P =>
      obtain ⟨h1, h2, h3, h4⟩ := h
      intro j hj
      cases j with
      | zero =>
        cases L with
        | nil => simp [lineStart, lineRem]; omega
        | cons s' L =>
          obtain ⟨i1, i2, _⟩ := ih h4 0 (by simp)
          simp [lineStart, lineRem] at i1 i2 ⊢
          omega
      | succ j =>
        obtain ⟨i1, i2, i3⟩ := ih h4 j (by simpa using hj)
        rw [lineStart_cons, lineRem_cons]
        refine ⟨by simp; simp at i1; omega, by simpa using i2, fun hlt => by simpa using i3 (by simpa using hlt)⟩

theorem sum_nonneg' {L : List Int} (h : ∀ s ∈ L, 0 ≤ s) : 0 ≤ L.sum := by
  induction L with
  | nil => simp
  | cons s L ih =>
    have := h s (by simp)
    have := ih (fun s hs => h s (by simp [hs]))
    simp; omega

theorem loose_of_bounds {lo N : Int} {L P : List Int} (hpos : ∀ s ∈ L, 0 ≤ s) (hlen : P.length = L.length) (hlo : L ≠ [] → lo ≤ P.getD 0 0)
    (hrem : ∀ j < L.length, P.getD j 0 + lineRem L j ≤ N) (hgap : ∀ j, j + 1 < L.length → P.getD j 0 + L.getD j 0 < P.getD (j + 1) 0) :
    Loose lo N L P := by
  induction L generalizing lo P with
  | nil => cases P with
    | nil => trivial
    | cons p P => simp at hlen
  | cons s L ih => cases P with
    | nil => simp at hlen
    | cons p P =>
      refine ⟨hpos s (by simp), by simpa using hlo (by simp), ?_, ih (fun s hs => hpos s (by simp [hs])) (by simpa using hlen) ?_ ?_ ?_⟩
      · have := hrem 0 (by simp)
        have h2 := sum_nonneg' (L := L) (fun s hs => hpos s (by simp [hs]))
        simp [lineRem] at this
        omega
      · intro hne
        have := hgap 0 (by have := List.length_pos_iff.2 hne; simp; omega)
        simp at this ⊢; omega
      · intro j hj
        have := hrem (j + 1) (by simpa using hj)
        rw [lineRem_cons] at this
        simpa using this
      · intro j hj
        have := hgap (j + 1) (by simpa using hj)
        simpa using this

/-- The number of blocks over a cell. -/
def cnt : List Int → List Int → Int → Int
  | s :: L, p :: P, c => nind s p c + cnt L P c
  | _, _, _ => 0

theorem cnt_sum (L P : List Int) (hlen : P.length = L.length) (c : Int) :
    ((List.range L.length).map (fun k => nind (L.getD k 0) (P.getD k 0) c)).sum = cnt L P c := by
  induction L generalizing P with
  | nil => cases P with
    | nil => rfl
    | cons p P => simp at hlen
  | cons s L ih => cases P with
    | nil => simp at hlen
    | cons p P =>
      have := ih P (by simpa using hlen)
      rw [List.length_cons, List.range_succ_eq_map]
      simp only [List.map_cons, List.map_map, List.sum_cons, Function.comp_def, cnt, ← this]
      simp

theorem cnt_cover {lo N : Int} {L P : List Int} (h : Loose lo N L P) (c : Int) : (Cover L P c → cnt L P c = 1) ∧ (¬ Cover L P c → cnt L P c = 0) := by
  induction L generalizing lo P with
  | nil => cases P <;> simp [Cover, cnt]
  | cons s L ih => cases P with
    | nil => simp [Cover, cnt]
    | cons p P =>
      obtain ⟨h1, h2, h3, h4⟩ := h
      obtain ⟨i1, i2⟩ := ih h4
      simp only [Cover, cnt, nind]
      by_cases hc : p ≤ c ∧ c < p + s
      · have : ¬ Cover L P c := fun hcov => by have := (h4.range hcov).1; omega
        simp [hc, i2 this]
      · simp only [hc, false_or, if_false, zero_add]
        exact ⟨i1, i2⟩

theorem cnt_eq_iff {lo N lo' N' : Int} {L P L' P' : List Int} (h : Loose lo N L P) (h' : Loose lo' N' L' P') (c c' : Int) :
    cnt L P c = cnt L' P' c' ↔ (Cover L P c ↔ Cover L' P' c') := by
  obtain ⟨a1, a2⟩ := cnt_cover h c
  obtain ⟨b1, b2⟩ := cnt_cover h' c'
  by_cases h1 : Cover L P c <;> by_cases h2 : Cover L' P' c'
  · simp [a1 h1, b1 h2, h1, h2]
  · simp [a1 h1, b2 h2, h1, h2]
  · simp [a2 h1, b1 h2, h1, h2]
  · simp [a2 h1, b2 h2, h1, h2]

/-! ## Filling in -/

theorem nonoFill_ok (l : List Int) (p n : Nat) (h : p + n ≤ l.length) :
    ∃ l', nonoFill l ((List.range' p n).map (fun c : Nat => (c : Int))) = .ok l' ∧ l'.length = l.length ∧
      ∀ c : Nat, l'[c]? = if p ≤ c ∧ c < p + n then some 1 else l[c]? := by
  induction n generalizing l p with
  | zero => exact ⟨l, rfl, rfl, fun c => by rw [if_neg (by omega)]⟩
  | succ n ih =>
    rw [List.range'_succ, List.map_cons, nonoFill, listSet_nat (by omega), ok_bind]
    obtain ⟨l', h1, h2, h3⟩ := ih (l.set p 1) (p + 1) (by simp; omega)
    refine ⟨l', h1, by simpa using h2, fun c => ?_⟩
    rw [h3, List.getElem?_set]
    by_cases hc : p = c
    · subst hc
      rw [if_neg (by omega), if_pos rfl, if_pos (by omega), if_pos (by omega)]
    · rw [if_neg hc]
      by_cases h4 : p + 1 ≤ c ∧ c < p + 1 + n
      · rw [if_pos h4, if_pos (by omega)]
      · rw [if_neg h4, if_neg (by omega)]

theorem pyRange_nat (p : Nat) (s : Int) (hs : 0 ≤ s) : pyRange p (p + s) = (List.range' p s.toNat).map (fun c : Nat => (c : Int)) := by
  unfold pyRange
  rw [show ((p : Int) + s - p).toNat = s.toNat by congr 1; omega, List.range'_eq_map_range, List.map_map]
  apply List.map_congr_left
  intro i _
  simp

theorem nonoRow_ok {σ : Subst} {N : Nat} (vs : List NVar) (L P : List Int) (lo : Int) (hlo : 0 ≤ lo)
    (hf : Loose lo N L P) (hvs : vs.map (fun v => v.size) = L) (hat : vs.map (fun v => σ.at v.var.name) = P.map .ok) (l : List Int) (hl : l.length = N) :
    ∃ l', nonoRow σ l vs = .ok l' ∧ l'.length = N ∧ ∀ c : Nat, c < N → (Cover L P c → l'[c]? = some 1) ∧ (¬ Cover L P c → l'[c]? = l[c]?) := by
  induction L generalizing lo P vs l with
  | nil =>
    simp only [List.map_eq_nil_iff] at hvs
    subst hvs
    exact ⟨l, rfl, hl, fun c _ => by simp [Cover]⟩
  | cons s L ih => cases P with
    | nil => exact absurd hf (by simp [Loose])
    | cons p P => cases vs with
      | nil => simp at hvs
      | cons v vs =>
        obtain ⟨h1, h2, h3, h4⟩ := hf
        simp only [List.map_cons, List.cons.injEq] at hvs hat
        obtain ⟨k, rfl⟩ := Int.eq_ofNat_of_zero_le (show 0 ≤ p by omega)
        obtain ⟨l1, e1, e2, e3⟩ := nonoFill_ok l k s.toNat (by omega)
        obtain ⟨l2, f1, f2, f3⟩ := ih vs P (k + s + 1) (by omega) h4 hvs.2 hat.2 l1 (by omega)
        refine ⟨l2, ?_, f2, fun c hc => ?_⟩
        · rw [nonoRow, hat.1, ok_bind, hvs.1, pyRange_nat k s (by omega), e1, ok_bind, f1]
        · obtain ⟨g1, g2⟩ := f3 c hc
          have hr : Cover L P c → (k : Int) + s + 1 ≤ c := fun h => (h4.range h).1
          simp only [Cover]
          constructor
          · rintro (h | h)
            · rw [g2 (fun h' => by have := hr h'; omega), e3, if_pos (by omega)]
            · exact g1 h
          · intro h
            simp only [not_or] at h
            rw [g2 h.2, e3, if_neg (by omega)]

/-! ## Solutions and pictures -/

section
variable {rows cols : List (List Int)}

/-- All entries of the clues are positive. -/
def PosClues (Ls : List (List Int)) : Prop := ∀ L ∈ Ls, ∀ s ∈ L, 0 < s

/-- No entry of the clues is negative. -/
def NonNeg (Ls : List (List Int)) : Prop := ∀ L ∈ Ls, ∀ s ∈ L, 0 ≤ s

theorem PosClues.nonneg {Ls : List (List Int)} (h : PosClues Ls) : NonNeg Ls := fun L hL s hs => Int.le_of_lt (h L hL s hs)

def sideL (rows cols : List (List Int)) (b : Bool) : List (List Int) := if b then rows else cols

/-- The positions in a line. -/
def starts (rows cols : List (List Int)) (σ : Subst) (b : Bool) (i : Nat) : List Int :=
  (List.range (clueF rows cols b i).length).map (fun k => val σ (nname (b, i, k)))

theorem starts_length (σ : Subst) (b : Bool) (i : Nat) : (starts rows cols σ b i).length = (clueF rows cols b i).length := by simp [starts]

theorem starts_getD (σ : Subst) (b : Bool) (i : Nat) {k : Nat} (hk : k < (clueF rows cols b i).length) :
    (starts rows cols σ b i).getD k 0 = val σ (nname (b, i, k)) := by
  simp [starts, List.getD, hk]

theorem clueF_nonneg (hr : NonNeg rows) (hc : NonNeg cols) (b : Bool) (i : Nat) : ∀ s ∈ clueF rows cols b i, 0 ≤ s := by
  intro s hs
  unfold clueF at hs
  cases b
  · by_cases hi : i < cols.length
    · simp [List.getD, hi] at hs
      exact hc _ (List.getElem_mem hi) s hs
    · simp [List.getD, List.getElem?_eq_none (Nat.not_lt.1 hi)] at hs
  · by_cases hi : i < rows.length
    · simp [List.getD, hi] at hs
      exact hr _ (List.getElem_mem hi) s hs
    · simp [List.getD, List.getElem?_eq_none (Nat.not_lt.1 hi)] at hs

theorem clueF_pos (hr : PosClues rows) (hc : PosClues cols) (b : Bool) (i : Nat) : ∀ s ∈ clueF rows cols b i, 0 < s := by
  intro s hs
  unfold clueF at hs
  cases b
  · by_cases hi : i < cols.length
    · simp [List.getD, hi] at hs
      exact hc _ (List.getElem_mem hi) s hs
    · simp [List.getD, List.getElem?_eq_none (Nat.not_lt.1 hi)] at hs
  · by_cases hi : i < rows.length
    · simp [List.getD, hi] at hs
      exact hr _ (List.getElem_mem hi) s hs
    · simp [List.getD, List.getElem?_eq_none (Nat.not_lt.1 hi)] at hs

theorem mem_nonoIdx {b : Bool} {i k : Nat} : (b, i, k) ∈ nonoIdx rows cols ↔ i < (sideL rows cols b).length ∧ k < (clueF rows cols b i).length := by
  unfold nonoIdx
  rw [List.mem_append, mem_linesIdx, mem_linesIdx]
  cases b <;> simp [sideL]

theorem nonoIdx_nodup (rows cols : List (List Int)) : ((nonoIdx rows cols).map nname).Nodup := by
  apply List.Nodup.map (fun _ _ h => nname_inj h)
  have hl : ∀ b n, (linesIdx (clueF rows cols) b n).Nodup := by
    intro b n
    unfold linesIdx
    rw [List.nodup_flatMap]
    constructor
    · intro i _
      exact List.Nodup.map (fun _ _ h => by simpa using h) List.nodup_range
    · refine List.Pairwise.imp ?_ List.nodup_range
      intro i j hij x h1 h2
      simp only [lineIdx, List.mem_map] at h1 h2
      obtain ⟨_, _, rfl⟩ := h1
      obtain ⟨_, _, h2⟩ := h2
      simp at h2
      exact hij h2.1.symm
  unfold nonoIdx
  refine List.nodup_append.2 ⟨hl _ _, hl _ _, ?_⟩
  intro x hx y hy he
  subst he
  have h1 := ((mem_linesIdx _).1 hx).1
  have h2 := ((mem_linesIdx _).1 hy).1
  rw [h1] at h2; cases h2

/-- What the constraints say. -/
def NonoC (rows cols : List (List Int)) (σ : Subst) : Prop :=
  (∀ i < rows.length, ∀ j, j + 1 < (clueF rows cols true i).length → Gap (clueF rows cols) true i j (val σ)) ∧
    (∀ i < cols.length, ∀ j, j + 1 < (clueF rows cols false i).length → Gap (clueF rows cols) false i j (val σ)) ∧
    ∀ r < rows.length, ∀ c < cols.length, lineCount (clueF rows cols) true r (val σ) c = lineCount (clueF rows cols) false c (val σ) r

abbrev nonoVars (rows cols : List (List Int)) : Dict (List Int) := tabVars (nonoIdx rows cols) nname (ndom (clueF rows cols) (sideN rows cols))

theorem nono_loose (hr : NonNeg rows) (hc : NonNeg cols) {σ : Subst} (hσ : Exact (nonoVars rows cols) σ) (hC : NonoC rows cols σ) (b : Bool) (i : Nat)
    (hi : i < (sideL rows cols b).length) : Loose 0 (sideN rows cols b) (clueF rows cols b i) (starts rows cols σ b i) := by
  have hdom : ∀ k < (clueF rows cols b i).length, lineStart (clueF rows cols b i) k ≤ val σ (nname (b, i, k)) ∧
      val σ (nname (b, i, k)) < sideN rows cols b - lineRem (clueF rows cols b i) k + 1 := by
    intro k hk
    obtain ⟨v, hv, hg⟩ := hσ.val (mem_nonoIdx.2 ⟨hi, hk⟩)
    rw [val_eq hg]
    exact mem_pyRange.1 hv
  refine loose_of_bounds (clueF_nonneg hr hc b i) (starts_length ..) ?_ ?_ ?_
  · intro hne
    have h0 := List.length_pos_iff.2 hne
    rw [starts_getD _ _ _ h0]
    have := (hdom 0 h0).1
    simpa [lineStart] using this
  · intro j hj
    rw [starts_getD _ _ _ hj]
    have := (hdom j hj).2
    omega
  · intro j hj
    rw [starts_getD _ _ _ (by omega), starts_getD _ _ _ hj]
    cases b
    · exact hC.2.1 i hi j hj
    · exact hC.1 i hi j hj

theorem lineCount_cnt (σ : Subst) (b : Bool) (i c : Nat) :
    lineCount (clueF rows cols) b i (val σ) c = cnt (clueF rows cols b i) (starts rows cols σ b i) c := by
  rw [← cnt_sum _ _ (starts_length ..)]
  unfold lineCount
  congr 1
  apply List.map_congr_left
  intro k hk
  rw [starts_getD _ _ _ (by simpa using hk)]

/-- The pixels of a row. -/
def RowPix (rows cols : List (List Int)) (σ : Subst) (r : Nat) (l : List Int) : Prop :=
  l.length = cols.length ∧ ∀ c < cols.length, (Cover (clueF rows cols true r) (starts rows cols σ true r) c → l[c]? = some 1) ∧
    (¬ Cover (clueF rows cols true r) (starts rows cols σ true r) c → l[c]? = some 0)

theorem nonoRow_pix (hr : NonNeg rows) (hc : NonNeg cols) {σ : Subst} (hσ : Exact (nonoVars rows cols) σ) (hC : NonoC rows cols σ) (r : Nat)
    (hi : r < rows.length) : ∃ l, nonoRow σ (List.replicate cols.length 0) (lineVars (clueF rows cols) (sideN rows cols) true r) = .ok l ∧
      RowPix rows cols σ r l := by
  obtain ⟨l, h1, h2, h3⟩ := nonoRow_ok (σ := σ) (N := cols.length) (lineVars (clueF rows cols) (sideN rows cols) true r) (clueF rows cols true r)
    (starts rows cols σ true r) 0 (le_refl _) (nono_loose hr hc hσ hC true r hi)
    (by
      apply List.ext_getElem
      · simp [lineVars]
      · intro k h1 h2
        simp [lineVars, nvar, List.getD, h2])
    (by
      unfold lineVars starts
      rw [List.map_map, List.map_map]
      apply List.map_congr_left
      intro k hk
      obtain ⟨v, _, hg⟩ := hσ.val (mem_nonoIdx.2 ⟨hi, by simpa using hk⟩ : (true, r, k) ∈ nonoIdx rows cols)
      simp only [Function.comp, nvar]
      rw [show (Expr.var (nname (true, r, k))).name = nname (true, r, k) from rfl, Subst.at_ok hg, val_eq hg])
    (List.replicate cols.length 0) (by simp)
  refine ⟨l, h1, h2, fun c hc' => ⟨(h3 c hc').1, fun h => ?_⟩⟩
  rw [(h3 c hc').2 h]
  simp [List.getElem?_replicate, hc']

theorem rowPix_unique {σ : Subst} {r : Nat} {l l' : List Int} (h : RowPix rows cols σ r l) (h' : RowPix rows cols σ r l') : l = l' := by
  apply List.ext_getElem?
  intro c
  by_cases hc : c < cols.length
  · by_cases hcov : Cover (clueF rows cols true r) (starts rows cols σ true r) c
    · rw [(h.2 c hc).1 hcov, (h'.2 c hc).1 hcov]
    · rw [(h.2 c hc).2 hcov, (h'.2 c hc).2 hcov]
  · rw [List.getElem?_eq_none (by rw [h.1]; omega), List.getElem?_eq_none (by rw [h'.1]; omega)]

/-- The decoded pixmap. -/
def Pix (rows cols : List (List Int)) (σ : Subst) (B : List (List Int)) : Prop :=
  B.length = rows.length ∧ ∀ r < rows.length, ∃ l, B[r]? = some l ∧ RowPix rows cols σ r l

theorem each_pix {α β : Type} {f : α → Res β} {Q : α → β → Prop} (l : List α) (h : ∀ x ∈ l, ∃ y, f x = .ok y ∧ Q x y) :
    ∃ L, Res.each f l = .ok L ∧ L.length = l.length ∧ ∀ (i : Nat) (x : α), l[i]? = some x → ∃ y, L[i]? = some y ∧ Q x y := by
  induction l with
  | nil => exact ⟨[], rfl, rfl, by simp⟩
  | cons a l ih =>
    obtain ⟨y, h1, h2⟩ := h a (by simp)
    obtain ⟨L, h3, h4, h5⟩ := ih (fun x hx => h x (by simp [hx]))
    refine ⟨y :: L, by rw [Res.each, h1, h3]; rfl, by simp [h4], fun i x hi => ?_⟩
    cases i with
    | zero => simp at hi; subst hi; exact ⟨y, rfl, h2⟩
    | succ i => simpa using h5 i x (by simpa using hi)

theorem nonoDecode_pix (hr : NonNeg rows) (hc : NonNeg cols) {σ : Subst} (hσ : Exact (nonoVars rows cols) σ) (hC : NonoC rows cols σ) :
    ∃ B, nonoDecode cols.length ((List.range rows.length).map (lineVars (clueF rows cols) (sideN rows cols) true)) σ = .ok B ∧ Pix rows cols σ B := by
  obtain ⟨L, h1, h2, h3⟩ := each_pix (f := fun r => nonoRow σ (List.replicate cols.length 0) (lineVars (clueF rows cols) (sideN rows cols) true r))
    (Q := fun r l => RowPix rows cols σ r l) (List.range rows.length) (fun r h => nonoRow_pix hr hc hσ hC r (by simpa using h))
  refine ⟨L, ?_, by simpa using h2, fun r hr' => h3 r r (by simp [hr'])⟩
  rw [← h1]
  unfold nonoDecode
  generalize List.range rows.length = l
  induction l with
  | nil => rfl
  | cons a l ih => simp only [List.map_cons, Res.each]; rw [ih]

theorem pix_placed (hr : NonNeg rows) (hc : NonNeg cols) {σ : Subst} (hσ : Exact (nonoVars rows cols) σ) (hC : NonoC rows cols σ)
    {B : List (List Int)} (hB : Pix rows cols σ B) : Placed rows cols B := by
  have hrow : ∀ row ∈ B, ∃ r < rows.length, B[r]? = some row ∧ RowPix rows cols σ r row := by
    intro row hm
    obtain ⟨r, hlt, rfl⟩ := List.getElem_of_mem hm
    obtain ⟨l, h1, h2⟩ := hB.2 r (by rw [← hB.1]; exact hlt)
    have : B[r] = l := by simpa [hlt] using h1
    exact ⟨r, by rw [← hB.1]; exact hlt, by simp [hlt], by rw [this]; exact h2⟩
  have hget : ∀ r < rows.length, ∀ c < cols.length, ((pixCol B c).getD r 0 ≠ 0 ↔ Cover (clueF rows cols true r) (starts rows cols σ true r) c) := by
    intro r hr' c hc'
    obtain ⟨l, h1, h2⟩ := hB.2 r hr'
    have : (pixCol B c).getD r 0 = l.getD c 0 := by simp [pixCol, List.getD, h1]
    rw [this]
    by_cases hcov : Cover (clueF rows cols true r) (starts rows cols σ true r) c
    · simp [List.getD, (h2.2 c hc').1 hcov, hcov]
    · simp [List.getD, (h2.2 c hc').2 hcov, hcov]
  refine ⟨hB.1, ?_, ?_, ?_, ?_⟩
  · intro row hm
    obtain ⟨r, _, _, h⟩ := hrow row hm
    exact h.1
  · intro row hm v hv
    obtain ⟨r, _, _, h⟩ := hrow row hm
    obtain ⟨c, hlt, rfl⟩ := List.getElem_of_mem hv
    have hc' : c < cols.length := by rw [← h.1]; exact hlt
    by_cases hcov : Cover (clueF rows cols true r) (starts rows cols σ true r) c
    · right; have := (h.2 c hc').1 hcov; simpa [hlt] using this
    · left; have := (h.2 c hc').2 hcov; simpa [hlt] using this
  · intro r h2
    obtain ⟨l, h3, h4⟩ := hB.2 r h2
    have hBr : B.getD r [] = l := by simp [List.getD, h3]
    rw [hBr]
    refine ⟨_, by rw [h4.1]; exact nono_loose hr hc hσ hC true r h2, fun c hc' => ?_⟩
    rw [h4.1] at hc'
    show Cover (clueF rows cols true r) _ _ ↔ _
    by_cases hcov : Cover (clueF rows cols true r) (starts rows cols σ true r) c
    · simp [List.getD, (h4.2 c hc').1 hcov, hcov]
    · simp [List.getD, (h4.2 c hc').2 hcov, hcov]
  · intro c h2
    have hlen : (pixCol B c).length = rows.length := by simp [pixCol, hB.1]
    refine ⟨_, by rw [hlen]; exact nono_loose hr hc hσ hC false c h2, fun r hr' => ?_⟩
    rw [hlen] at hr'
    rw [hget r hr' c h2]
    have := hC.2.2 r hr' c h2
    rw [lineCount_cnt, lineCount_cnt, cnt_eq_iff (nono_loose hr hc hσ hC true r hr') (nono_loose hr hc hσ hC false c h2)] at this
    exact this.symm

theorem placed_encode {B : List (List Int)} (hB : Placed rows cols B) :
    ∃ σ, Exact (nonoVars rows cols) σ ∧ NonoC rows cols σ ∧ Pix rows cols σ B := by
  -- positions of the blocks of every line
  have hline : ∀ (b : Bool) (i : Nat), ∃ P, i < (sideL rows cols b).length → Loose 0 (sideN rows cols b) (clueF rows cols b i) P ∧
      ∀ c < sideN rows cols b, (Cover (clueF rows cols b i) P c ↔ (if b then (B.getD i []).getD c 0 else (pixCol B i).getD c 0) ≠ 0) := by
    intro b i
    by_cases hi : i < (sideL rows cols b).length
    · cases b
      · obtain ⟨P, h2, h3⟩ := hB.cols i hi
        have hlen : (pixCol B i).length = rows.length := by simp [pixCol, hB.height]
        rw [hlen] at h2 h3
        exact ⟨P, fun _ => ⟨h2, h3⟩⟩
      · have hiB : i < B.length := by rw [hB.height]; exact hi
        obtain ⟨P, h2, h3⟩ := hB.rows i hi
        have hlen : (B.getD i []).length = cols.length := by
          rw [← hB.width _ (List.getElem_mem hiB)]; simp [List.getD, hiB]
        rw [hlen] at h2 h3
        exact ⟨P, fun _ => ⟨h2, h3⟩⟩
    · exact ⟨[], fun h => absurd h hi⟩
  obtain ⟨pos, hpos⟩ : ∃ pos : Bool → Nat → List Int, ∀ b i, i < (sideL rows cols b).length → Loose 0 (sideN rows cols b) (clueF rows cols b i) (pos b i) ∧
      ∀ c < sideN rows cols b, (Cover (clueF rows cols b i) (pos b i) c ↔ (if b then (B.getD i []).getD c 0 else (pixCol B i).getD c 0) ≠ 0) :=
    ⟨fun b i => Classical.choose (hline b i), fun b i => Classical.choose_spec (hline b i)⟩
  let f : NIdx → Int := fun x => (pos x.1 x.2.1).getD x.2.2 0
  have hval : ∀ b i k, i < (sideL rows cols b).length → k < (clueF rows cols b i).length → val (tab (nonoIdx rows cols) nname f) (nname (b, i, k)) = (pos b i).getD k 0 := by
    intro b i k hi hk
    exact val_eq (tab_get (nonoIdx_nodup rows cols) (mem_nonoIdx.2 ⟨hi, hk⟩))
  have hst : ∀ b i, i < (sideL rows cols b).length → starts rows cols (tab (nonoIdx rows cols) nname f) b i = pos b i := by
    intro b i hi
    apply List.ext_getElem
    · rw [starts_length, loose_length (hpos b i hi).1]
    · intro k h1 h2
      have hk : k < (clueF rows cols b i).length := by rw [starts_length] at h1; exact h1
      simp only [starts, List.getElem_map, List.getElem_range]
      rw [hval b i k hi hk]
      simp [List.getD, h2]
  refine ⟨tab (nonoIdx rows cols) nname f, tab_exact (nonoIdx_nodup rows cols) ?_, ⟨?_, ?_, ?_⟩, hB.height, ?_⟩
  · rintro ⟨b, i, k⟩ hx
    obtain ⟨hi, hk⟩ := mem_nonoIdx.1 hx
    obtain ⟨h1, h2, _⟩ := loose_bounds (hpos b i hi).1 k hk
    refine mem_pyRange.2 ⟨?_, ?_⟩
    · show _ ≤ (pos b i).getD k 0
      simpa using h1
    · show (pos b i).getD k 0 < _
      simp only
      omega
  · intro i hi j hj
    unfold Gap
    rw [hval true i j hi (by omega), hval true i (j + 1) hi hj]
    exact (loose_bounds (hpos true i hi).1 j (by omega)).2.2 hj
  · intro i hi j hj
    unfold Gap
    rw [hval false i j hi (by omega), hval false i (j + 1) hi hj]
    exact (loose_bounds (hpos false i hi).1 j (by omega)).2.2 hj
  · intro r hr' c hc'
    rw [lineCount_cnt, lineCount_cnt, hst true r hr', hst false c hc', cnt_eq_iff (hpos true r hr').1 (hpos false c hc').1]
    rw [(hpos true r hr').2 c hc', (hpos false c hc').2 r hr']
    have hrB : r < B.length := by rw [hB.height]; exact hr'
    simp [pixCol, List.getD, hrB]
  · intro r hr'
    have hrB : r < B.length := by rw [hB.height]; exact hr'
    have hw := hB.width _ (List.getElem_mem hrB)
    refine ⟨B[r], by simp [hrB], hw, fun c hc' => ?_⟩
    rw [hst true r hr', (hpos true r hr').2 c hc']
    have hcB : c < B[r].length := by rw [hw]; exact hc'
    have := hB.cells _ (List.getElem_mem hrB) _ (List.getElem_mem hcB)
    simp only [if_true, List.getD, hrB, hcB, List.getElem?_eq_getElem, Option.getD_some]
    rcases this with h | h <;> simp [h]

theorem pix_inj (hr : PosClues rows) (hc : PosClues cols) {σ σ' : Subst} (hσ : Exact (nonoVars rows cols) σ) (hσ' : Exact (nonoVars rows cols) σ')
    (hC : NonoC rows cols σ) (hC' : NonoC rows cols σ') {B : List (List Int)} (hB : Pix rows cols σ B) (hB' : Pix rows cols σ' B) : SameDict σ σ' := by
  have hrow : ∀ r < rows.length, ∀ c < cols.length, (Cover (clueF rows cols true r) (starts rows cols σ true r) c ↔
      Cover (clueF rows cols true r) (starts rows cols σ' true r) c) := by
    intro r hr' c hc'
    obtain ⟨l, h1, h2⟩ := hB.2 r hr'
    obtain ⟨l', h1', h2'⟩ := hB'.2 r hr'
    rw [h1] at h1'
    cases h1'
    by_cases h3 : Cover (clueF rows cols true r) (starts rows cols σ true r) c <;>
      by_cases h4 : Cover (clueF rows cols true r) (starts rows cols σ' true r) c
    · simp [h3, h4]
    · have := ((h2.2 c hc').1 h3).symm.trans ((h2'.2 c hc').2 h4); simp at this
    · have := ((h2.2 c hc').2 h3).symm.trans ((h2'.2 c hc').1 h4); simp at this
    · simp [h3, h4]
  have hst : ∀ b i, i < (sideL rows cols b).length → starts rows cols σ b i = starts rows cols σ' b i := by
    intro b i hi
    have f1 := nono_loose hr.nonneg hc.nonneg hσ hC b i hi
    have f2 := nono_loose hr.nonneg hc.nonneg hσ' hC' b i hi
    have hp := clueF_pos hr hc b i
    refine (fits_unique (f1.fits hp) (f2.fits hp) (fun c => ?_)).2
    by_cases hcr : 0 ≤ c ∧ c < sideN rows cols b
    · obtain ⟨k, rfl⟩ := Int.eq_ofNat_of_zero_le hcr.1
      cases b
      · have hi : i < cols.length := hi
        have hk : k < rows.length := by have := hcr.2; simp [sideN] at this; omega
        have e1 := hC.2.2 k hk i hi
        have e2 := hC'.2.2 k hk i hi
        rw [lineCount_cnt, lineCount_cnt, cnt_eq_iff (nono_loose hr.nonneg hc.nonneg hσ hC true k hk) f1] at e1
        rw [lineCount_cnt, lineCount_cnt, cnt_eq_iff (nono_loose hr.nonneg hc.nonneg hσ' hC' true k hk) f2] at e2
        rw [← e1, ← e2]
        exact hrow k hk i hi
      · exact hrow i hi k (by have := hcr.2; simp [sideN] at this; omega)
    · exact ⟨fun h => absurd (f1.range h) hcr, fun h => absurd (f2.range h) hcr⟩
  refine hσ.same hσ' (fun x hx => ?_)
  rw [tabVars_keys] at hx
  obtain ⟨⟨b, i, k⟩, hm, rfl⟩ := List.mem_map.1 hx
  obtain ⟨hi, hk⟩ := mem_nonoIdx.1 hm
  have := congrArg (fun l => l.getD k 0) (hst b i hi)
  simp only [starts_getD _ _ _ hk] at this
  obtain ⟨v, _, hv⟩ := hσ.val hm
  obtain ⟨v', _, hv'⟩ := hσ'.val hm
  rw [val_eq hv, val_eq hv'] at this
  rw [hv, hv', this]

theorem nonoDecode_same {nc : Nat} {vs : List (List NVar)} {τ τ' : Subst} (h : SameDict τ τ') : nonoDecode nc vs τ = nonoDecode nc vs τ' := by
  have hrow : ∀ (l : List Int) (v : List NVar), nonoRow τ l v = nonoRow τ' l v := by
    intro l v
    induction v generalizing l with
    | nil => rfl
    | cons x v ih =>
      rw [nonoRow, nonoRow, h.at]
      congr 1
      funext s
      congr 1
      funext l'
      exact ih l'
  unfold nonoDecode
  congr 1
  funext v
  exact hrow _ v

/-! ## C38 -/

theorem nono_vars_ne (hne : ∃ L ∈ rows ++ cols, L ≠ []) : nonoVars rows cols ≠ [] := by
  intro h0
  have hnil : nonoIdx rows cols = [] := by simpa [tabVars] using h0
  obtain ⟨L, hL, hLne⟩ := hne
  have hpos := List.length_pos_iff.2 hLne
  rcases List.mem_append.1 hL with hL | hL
  · obtain ⟨i, hi, rfl⟩ := List.getElem_of_mem hL
    have : (true, i, 0) ∈ nonoIdx rows cols := mem_nonoIdx.2 ⟨hi, by simpa [clueF, List.getD, hi] using hpos⟩
    rw [hnil] at this; simp at this
  · obtain ⟨i, hi, rfl⟩ := List.getElem_of_mem hL
    have : (false, i, 0) ∈ nonoIdx rows cols := mem_nonoIdx.2 ⟨hi, by simpa [clueF, List.getD, hi] using hpos⟩
    rw [hnil] at this; simp at this

theorem nono_sound (hr : NonNeg rows) (hc : NonNeg cols) (τ : Subst) (hτ : Exact (nonoVars rows cols) τ) (hC : NonoC rows cols τ) :
    ∃ B, nonoDecode cols.length ((List.range rows.length).map (lineVars (clueF rows cols) (sideN rows cols) true)) τ = .ok B ∧
      Placed rows cols B := by
  obtain ⟨B, h1, h2⟩ := nonoDecode_pix hr hc hτ hC
  exact ⟨B, h1, pix_placed hr hc hτ hC h2⟩

theorem nono_complete (hr : NonNeg rows) (hc : NonNeg cols) (B : List (List Int)) (hB : Placed rows cols B) :
    ∃ τ, Exact (nonoVars rows cols) τ ∧ NonoC rows cols τ ∧
      nonoDecode cols.length ((List.range rows.length).map (lineVars (clueF rows cols) (sideN rows cols) true)) τ = .ok B := by
  obtain ⟨σ, h1, h2, h3⟩ := placed_encode hB
  refine ⟨σ, h1, h2, ?_⟩
  obtain ⟨B', h4, h5⟩ := nonoDecode_pix hr hc h1 h2
  rw [h4]
  congr 1
  apply List.ext_getElem?
  intro r
  by_cases hr' : r < rows.length
  · obtain ⟨l, e1, e2⟩ := h3.2 r hr'
    obtain ⟨l', e1', e2'⟩ := h5.2 r hr'
    rw [e1, e1', rowPix_unique e2 e2']
  · rw [List.getElem?_eq_none (by rw [h5.1]; omega), List.getElem?_eq_none (by rw [h3.1]; omega)]

/-- A picture in which the blocks of the clues can be placed has the clues without the zeros. -/
theorem placed_picture {B : List (List Int)} (hB : Placed rows cols B) : Picture (rows.map noZeros) (cols.map noZeros) B := by
  refine ⟨by simpa using hB.height, by simpa using hB.width, hB.cells, ?_, ?_⟩
  · apply List.ext_getElem
    · simp [hB.height]
    · intro r h1 h2
      have hr' : r < rows.length := by simpa using h2
      have hrB : r < B.length := by simpa using h1
      obtain ⟨P, h3, h4⟩ := hB.rows r hr'
      obtain ⟨P', h5, h6⟩ := h3.drop
      rw [List.getElem_map, List.getElem_map]
      simp only [List.getD, hrB, hr', List.getElem?_eq_getElem, Option.getD_some] at h4 h5 h6
      exact (runs_iff _ _).2 ⟨P', h5, fun c hc => (h6 c).trans (h4 c hc)⟩
  · apply List.ext_getElem
    · simp
    · intro c h1 h2
      have hc' : c < cols.length := by simpa using h2
      obtain ⟨P, h3, h4⟩ := hB.cols c hc'
      obtain ⟨P', h5, h6⟩ := h3.drop
      rw [List.getElem_map, List.getElem_map, List.getElem_range]
      simp only [List.getD, hc', List.getElem?_eq_getElem, Option.getD_some] at h5 h6
      simp only [List.getD, hc', List.getElem?_eq_getElem, Option.getD_some] at h4
      exact (runs_iff _ _).2 ⟨P', h5, fun r hr => (h6 r).trans (h4 r hr)⟩

theorem noZeros_pos {Ls : List (List Int)} (h : PosClues Ls) : Ls.map noZeros = Ls := by
  conv_rhs => rw [← List.map_id Ls]
  apply List.map_congr_left
  intro L hL
  exact List.filter_eq_self.2 (fun s hs => by have := h L hL s hs; simp; omega)

theorem picture_placed {B : List (List Int)} (hB : Picture rows cols B) : Placed rows cols B := by
  refine ⟨hB.height, hB.width, hB.cells, fun r hr => ?_, fun c hc => ?_⟩
  · have hrB : r < B.length := by rw [hB.height]; exact hr
    have h1 : runs B[r] = rows[r] := by
      have := congrArg (fun l => l[r]?) hB.rowRuns
      simpa [hr, hrB] using this
    obtain ⟨P, h2, h3⟩ := (runs_iff _ _).1 h1
    refine ⟨P, ?_, ?_⟩ <;> simp only [List.getD, hr, hrB, List.getElem?_eq_getElem, Option.getD_some]
    · exact h2.loose
    · exact h3
  · have h1 : runs (pixCol B c) = cols[c] := by
      have := congrArg (fun l => l[c]?) hB.colRuns
      simpa [hc] using this
    obtain ⟨P, h2, h3⟩ := (runs_iff _ _).1 h1
    refine ⟨P, ?_, ?_⟩ <;> simp only [List.getD, hc, List.getElem?_eq_getElem, Option.getD_some]
    · exact h2.loose
    · exact h3

/-- C38 for clues in which zeros may occur, with at least one number: construction succeeds and the iteration produces exactly the pictures
in which blocks of the lengths of the clues (an empty one for a zero) can be placed in order, with gaps, such that they cover the filled
cells; such a picture has the clues without the zeros. It may come several times. -/
theorem C38_zero (h : Heap) (hr : NonNeg rows) (hc : NonNeg cols) (hne : ∃ L ∈ rows ++ cols, L ≠ []) :
    ∃ w vs, nonoBuild rows cols ⟨.empty, h⟩ = (w, .ok vs) ∧
      ∀ a : SolveArgs, (∀ l, (a.shuffle l).Perm l) → a.adds = [] →
        PuzzleAll a (puzzleRun a w (nonoDecode cols.length vs)) (Placed rows cols) ∧
        ∀ n L, (puzzleRun a w (nonoDecode cols.length vs) n).1 = .ok L → ∀ B ∈ L, Picture (rows.map noZeros) (cols.map noZeros) B := by
  obtain ⟨w, hw, hb⟩ := nono_built h rows cols
  refine ⟨w, _, hw, fun a hs ha => ?_⟩
  have := hb.puzzleAll hs ha (nono_vars_ne hne) (nono_sound hr hc) (nono_complete hr hc) (fun τ τ' h => nonoDecode_same h)
  refine ⟨this, fun n L hL B hB => ?_⟩
  obtain ⟨L', h1, h2⟩ := this.sound n
  rw [hL] at h1
  cases h1
  exact placed_picture (h2 B hB)

/-- C38 for clues of positive numbers, at least one of them: construction succeeds and the iteration produces exactly the pictures with
these clues, each once (whatever the settings of the solver). -/
theorem C38_partial (h : Heap) (hr : PosClues rows) (hc : PosClues cols) (hne : ∃ L ∈ rows ++ cols, L ≠ []) :
    ∃ w vs, nonoBuild rows cols ⟨.empty, h⟩ = (w, .ok vs) ∧
      ∀ a : SolveArgs, (∀ l, (a.shuffle l).Perm l) → a.adds = [] →
        PuzzleRun a (puzzleRun a w (nonoDecode cols.length vs)) (Picture rows cols) := by
  obtain ⟨w, hw, hb⟩ := nono_built h rows cols
  refine ⟨w, _, hw, fun a hs ha => ?_⟩
  have hpp : ∀ B, Placed rows cols B → Picture rows cols B := fun B hB => by
    have := placed_picture hB
    rwa [noZeros_pos hr, noZeros_pos hc] at this
  refine hb.puzzle hs ha (nono_vars_ne hne) (fun τ hτ hC => ?_) (fun B hB => nono_complete hr.nonneg hc.nonneg B (picture_placed hB)) ?_
    (fun τ τ' h => nonoDecode_same h)
  · obtain ⟨B, h1, h2⟩ := nono_sound hr.nonneg hc.nonneg τ hτ hC
    exact ⟨B, h1, hpp B h2⟩
  · intro τ τ' hτ hτ' hC hC' he
    obtain ⟨B, h1, h2⟩ := nonoDecode_pix hr.nonneg hc.nonneg hτ hC
    obtain ⟨B', h1', h2'⟩ := nonoDecode_pix hr.nonneg hc.nonneg hτ' hC'
    rw [h1, h1'] at he
    cases he
    exact pix_inj hr hc hτ hτ' hC hC' h2 h2'

end

/-- C38 in full: whatever the clues. -/
def C38 : Prop := ∀ (rows cols : List (List Int)) (a : SolveArgs), (∀ l, (a.shuffle l).Perm l) → a.adds = [] →
  ∃ w vs, nonoBuild rows cols ⟨.empty, heap0⟩ = (w, .ok vs) ∧ PuzzleRun a (puzzleRun a w (nonoDecode cols.length vs)) (Picture rows cols)

/-- Clues that are all empty have the blank picture, which is not produced (as there are no variables). -/
theorem C38_refuted : ¬ C38 := by
  intro h
  obtain ⟨w, d, h1, h2⟩ := h [[]] [[]] { solver := {} } (fun l => .refl _) rfl
  have : w = (nonoBuild [[]] [[]] ⟨.empty, heap0⟩).1 := by rw [h1]
  subst this
  exact not_complete (fun l => .refl _) (by decide) [[0]] ⟨rfl, by decide, by decide, by decide, by decide⟩ rfl rfl h2.toPuzzleAll

/-- Clues that are all empty: nothing is produced. -/
theorem C38_blank (h : Heap) (rows cols : List (List Int)) (hr : ∀ L ∈ rows, L = []) (hc : ∀ L ∈ cols, L = []) :
    ∃ w vs, nonoBuild rows cols ⟨.empty, h⟩ = (w, .ok vs) ∧ ∀ a : SolveArgs, (∀ l, (a.shuffle l).Perm l) → ∀ k, (puzzleRun a w (nonoDecode cols.length vs) k).1 = .ok [] := by
  obtain ⟨w, hw, hb⟩ := nono_built h rows cols
  refine ⟨w, _, hw, fun a hs => puzzle_no_vars hs ?_ _⟩
  have : nonoIdx rows cols = [] := by
    rw [List.eq_nil_iff_forall_not_mem]
    rintro ⟨b, i, j⟩ hm
    obtain ⟨h1, h2⟩ := mem_nonoIdx.1 hm
    cases b <;> simp only [clueF, List.getD, Bool.false_eq_true, if_true, if_false] at h1 h2
    · cases hi : cols[i]? with
      | none => simp [hi] at h2
      | some L => rw [hi, Option.getD_some, hc L (List.mem_of_getElem? hi)] at h2; simp at h2
    · cases hi : rows[i]? with
      | none => simp [hi] at h2
      | some L => rw [hi, Option.getD_some, hr L (List.mem_of_getElem? hi)] at h2; simp at h2
  rw [hb.pureKeys, tabVars_keys, this]; rfl

/-- The clue `[0]`, which no picture has (an empty row has the clue `[]`): the blank picture is produced, twice. -/
theorem nono_zero :
    let p := built (nonoBuild [[0]] [[]]) []
    (puzzleRun { solver := {} } p.1 (nonoDecode 1 p.2) 10).1 = .ok [[[0]], [[0]]] := by decide +kernel

theorem C38_refuted_zero : ¬ C38 := by
  intro h
  obtain ⟨w, d, h1, h2⟩ := h [[0]] [[]] { solver := {} } (fun l => .refl _) rfl
  have key := nono_zero
  rw [built_eq h1] at key
  have := h2.once 10 _ key
  simp at this

-- the hypotheses of `C38_zero`; a zero needs its room: the picture with one filled cell has the clue `[1, 0]` in a line of two cells but not
-- in a line of one
example : NonNeg [[1, 0]] ∧ NonNeg [[1], []] ∧ Placed [[1, 0]] [[1], []] [[1, 0]] ∧ ¬ Places [1, 0] [1] := by
  refine ⟨by unfold NonNeg; decide, by unfold NonNeg; decide, ⟨rfl, by decide, by decide, ?_, ?_⟩, ?_⟩
  · intro r hr
    obtain rfl : r = 0 := by simpa using hr
    refine ⟨[0, 2], by simp [Loose], fun c hc => ?_⟩
    have : c = 0 ∨ c = 1 := by simp at hc; omega
    rcases this with rfl | rfl <;> simp [Cover]
  · intro c hc
    have : c = 0 ∨ c = 1 := by simp at hc; omega
    rcases this with rfl | rfl
    · refine ⟨[0], by simp [Loose, pixCol], fun c hc => ?_⟩
      obtain rfl : c = 0 := by simpa [pixCol] using hc
      simp [Cover, pixCol]
    · refine ⟨[], trivial, fun c hc => ?_⟩
      obtain rfl : c = 0 := by simpa [pixCol] using hc
      simp [Cover, pixCol]
  · rintro ⟨P, h, _⟩
    match P, h with
    | [p, q], ⟨_, h1, _, _, h2, h3, _⟩ => simp at h3; omega

-- the hypotheses of `C38_partial`, a picture with these clues, and the class at work
example : PosClues [[1, 1], [2]] ∧ PosClues [[2], [1], [1]] ∧ Picture [[1, 1], [2]] [[2], [1], [1]] [[1, 0, 1], [1, 1, 0]] :=
  ⟨by unfold PosClues; decide, by unfold PosClues; decide, by decide, by decide, by decide, by decide, by decide⟩

example :
    let p := built (nonoBuild [[1], [1]] [[1], [1]]) []
    (puzzleRun { solver := {} } p.1 (nonoDecode 2 p.2) 40).1 = .ok [[[0, 1], [1, 0]], [[1, 0], [0, 1]]] := by decide +kernel

/-! ## C39 -/

/-- All rows have the same length. -/
def Rect (p : List (List Int)) (n : Nat) : Prop := ∀ row ∈ p, row.length = n

theorem pixmapShape_rect {p : List (List Int)} {n : Nat} (h : Rect p n) (hne : p ≠ []) : pixmapShape p = (p.length, n) := by
  have : ∀ (l : List (List Int)) (m : Nat), (∀ row ∈ l, row.length = n) → m ≤ n → (l ≠ [] ∨ m = n) → l.foldl (fun m row => max m row.length) m = n := by
    intro l
    induction l with
    | nil => intro m _ _ h; simpa using h
    | cons row l ih =>
      intro m hl hm _
      rw [List.foldl_cons, hl row (by simp), Nat.max_eq_right hm]
      exact ih n (fun r hr => hl r (by simp [hr])) (le_refl _) (.inr rfl)
  unfold pixmapShape
  rw [this p 0 h (Nat.zero_le _) (.inl hne)]

/-- C39: the clues of a rectangular pixmap (cells count as filled unless they are 0) are the lengths of the runs. The pixmap without rows
has no columns. -/
theorem C39_runs (p : List (List Int)) (n : Nat) (h : Rect p n) (h0 : p = [] → n = 0) :
    pixmapToNonogram p = .ok (p.map runs, (List.range n).map (fun c => runs (pixCol p c))) := by
  have hclue : ∀ l, clueLoop l [] 0 = runs l := by
    intro l
    have := clueLoop_eq l [] 0
    simpa [runs_eq] using this
  have hshape : pixmapShape p = (p.length, n) := by
    by_cases hne : p = []
    · subst hne; rw [h0 rfl]; rfl
    · exact pixmapShape_rect h hne
  have hcells : ∀ c < n, Res.each (fun r : Nat => do
      let row ← listAt p r
      listAt row c) (List.range p.length) = .ok (pixCol p c) := by
    intro c hc
    have : pixCol p c = (List.range p.length).map (fun r => (p.getD r []).getD c 0) := by
      unfold pixCol
      apply List.ext_getElem
      · simp
      · intro r h1 h2
        have : r < p.length := by simpa using h1
        simp [List.getD, this]
    rw [this]
    apply Res.each_ok
    intro r hr
    have hr' : r < p.length := by simpa using hr
    have hc' : c < p[r].length := by rw [h _ (List.getElem_mem hr')]; exact hc
    rw [listAt_nat hr']
    show listAt p[r] c = _
    rw [listAt_nat hc']
    simp [List.getD, hr', hc']
  have hcols : Res.each (fun c : Nat => do
      let cells ← Res.each (fun r : Nat => do
        let row ← listAt p r
        listAt row c) (List.range p.length)
      return clueLoop cells [] 0) (List.range n) = .ok ((List.range n).map (fun c => runs (pixCol p c))) := by
    apply Res.each_ok
    intro c hc
    rw [hcells c (by simpa using hc)]
    show Except.ok (clueLoop _ [] 0) = _
    rw [hclue]
  unfold pixmapToNonogram
  rw [hshape]
  simp only
  rw [hcols]
  simp only [hclue]
  rfl

example : pixmapToNonogram [[1, 0, 7], [1, 1, 0]] = .ok ([[1, 1], [2]], [[2], [1], [1]]) := by decide

/-- A row longer than the others: the short rows are indexed beyond their end. -/
theorem C39_ragged : pixmapToNonogram [[1], [1, 1]] = .error .indexError := by decide

/-! ## C40 -/

/-- A rectangular pixmap of zeros and ones with `n` columns. -/
structure Pixmap (p : List (List Int)) (n : Nat) : Prop where
  rect : Rect p n
  cells : ∀ row ∈ p, ∀ v ∈ row, v = 0 ∨ v = 1
  none : p = [] → n = 0

/-- C40 in full: the clues of a pixmap are computed without error, the solver is built without error, and an iteration without limit and
timeout produces the pixmap (and ends). -/
def C40 : Prop := ∀ (p : List (List Int)) (n : Nat), Pixmap p n → ∃ rows cols, pixmapToNonogram p = .ok (rows, cols) ∧
  ∃ w vs, nonoBuild rows cols ⟨.empty, heap0⟩ = (w, .ok vs) ∧
    ∀ a : SolveArgs, (∀ l, (a.shuffle l).Perm l) → a.adds = [] → a.solver.limit = none → a.solver.timeout = none →
      ∃ N, ∀ k ≥ N, ∃ L, (puzzleRun a w (nonoDecode cols.length vs) k).1 = .ok L ∧
        (puzzleRun a w (nonoDecode cols.length vs) k).2.phase = .finished ∧ p ∈ L

theorem pixmap_picture {p : List (List Int)} {n : Nat} (h : Pixmap p n) : Picture (p.map runs) ((List.range n).map (fun c => runs (pixCol p c))) p :=
  ⟨by simp, by simpa [Rect] using h.rect, h.cells, rfl, by simp⟩

theorem runs_pos (l : List Int) : ∀ s ∈ runs l, 0 < s := by
  intro s hs
  unfold runs at hs
  rw [List.mem_filter] at hs
  obtain ⟨b, _, rfl⟩ := List.mem_map.1 hs.1
  have := hs.2
  simp at this
  have := List.length_pos_iff.2 this
  omega

theorem runs_ne_nil {l : List Int} {v : Int} (hv : v ∈ l) (h0 : v ≠ 0) : runs l ≠ [] := by
  intro h
  obtain ⟨P, h1, h2⟩ := (runs_iff l []).1 h
  obtain ⟨c, hc, rfl⟩ := List.getElem_of_mem hv
  have := (h2 c hc).2 (by simpa [List.getD, hc] using h0)
  simp [Cover] at this

/-- C40 for pixmaps that are not blank. -/
theorem C40_partial (h : Heap) (p : List (List Int)) (n : Nat) (hp : Pixmap p n) (hf : ∃ row ∈ p, 1 ∈ row) :
    ∃ rows cols, pixmapToNonogram p = .ok (rows, cols) ∧
      ∃ w vs, nonoBuild rows cols ⟨.empty, h⟩ = (w, .ok vs) ∧
        ∀ a : SolveArgs, (∀ l, (a.shuffle l).Perm l) → a.adds = [] → a.solver.limit = none → a.solver.timeout = none →
          ∃ N, ∀ k ≥ N, ∃ L, (puzzleRun a w (nonoDecode cols.length vs) k).1 = .ok L ∧
            (puzzleRun a w (nonoDecode cols.length vs) k).2.phase = .finished ∧ p ∈ L := by
  refine ⟨_, _, C39_runs p n hp.rect hp.none, ?_⟩
  have hpic := pixmap_picture hp
  obtain ⟨w, vs, h1, h2⟩ := C38_partial h (rows := p.map runs) (cols := (List.range n).map (fun c => runs (pixCol p c)))
    (by intro L hL; obtain ⟨l, _, rfl⟩ := List.mem_map.1 hL; exact runs_pos l)
    (by intro L hL; obtain ⟨l, _, rfl⟩ := List.mem_map.1 hL; exact runs_pos _)
    (by
      obtain ⟨row, hr, h1⟩ := hf
      exact ⟨runs row, List.mem_append_left _ (List.mem_map_of_mem hr), runs_ne_nil h1 (by decide)⟩)
  refine ⟨w, vs, h1, fun a hs ha hl ht => ?_⟩
  obtain ⟨N, hN⟩ := (h2 a hs ha).complete
  refine ⟨N, fun k hk => ?_⟩
  obtain ⟨L, e1, e2, e3⟩ := hN k hk
  refine ⟨L, e1, e2, ?_⟩
  rcases e3 with ⟨_, e⟩ | ⟨_, l, e, _⟩ | ⟨_, e⟩
  · exact (e p).2 hpic
  · rw [hl] at e; simp at e
  · rw [ht] at e; simp at e

theorem runs_blank {l : List Int} (h : ∀ v ∈ l, v = 0) : runs l = [] := by
  refine (runs_iff l []).2 ⟨[], trivial, fun c hc => ?_⟩
  simp [Cover, List.getD, hc, h _ (List.getElem_mem hc)]

/-- Blank pixmaps in general: construction succeeds, but nothing is produced. -/
theorem C40_blank (h : Heap) (p : List (List Int)) (n : Nat) (hp : Pixmap p n) (hf : ∀ row ∈ p, 1 ∉ row) :
    ∃ rows cols, pixmapToNonogram p = .ok (rows, cols) ∧
      ∃ w vs, nonoBuild rows cols ⟨.empty, h⟩ = (w, .ok vs) ∧
        ∀ a : SolveArgs, (∀ l, (a.shuffle l).Perm l) → ∀ k, (puzzleRun a w (nonoDecode cols.length vs) k).1 = .ok [] := by
  have h0 : ∀ row ∈ p, ∀ v ∈ row, v = 0 := by
    intro row hr v hv
    rcases hp.cells row hr v hv with h | h
    · exact h
    · subst h; exact absurd hv (hf row hr)
  refine ⟨_, _, C39_runs p n hp.rect hp.none, ?_⟩
  have hrows : ∀ L ∈ p.map runs, L = [] := by
    intro L hL
    obtain ⟨row, hr, rfl⟩ := List.mem_map.1 hL
    exact runs_blank (h0 row hr)
  have hcols : ∀ L ∈ (List.range n).map (fun c => runs (pixCol p c)), L = [] := by
    intro L hL
    obtain ⟨c, hc, rfl⟩ := List.mem_map.1 hL
    refine runs_blank (fun v hv => ?_)
    obtain ⟨row, hr, rfl⟩ := List.mem_map.1 hv
    have hc' : c < row.length := by rw [hp.rect row hr]; simpa using hc
    simp [List.getD, hc', h0 row hr _ (List.getElem_mem hc')]
  obtain ⟨w, vs, hw, hb⟩ := C38_blank h _ _ hrows hcols
  exact ⟨w, vs, hw, hb⟩

/-- A blank pixmap is not recovered. -/
theorem C40_refuted : ¬ C40 := by
  intro h
  obtain ⟨rows, cols, h1, w, vs, h2, h3⟩ := h [[0]] 1 ⟨by unfold Rect; decide, by decide, by decide⟩
  have : pixmapToNonogram [[0]] = .ok ([[]], [[]]) := by decide
  rw [this] at h1
  cases h1
  have : w = (nonoBuild [[]] [[]] ⟨.empty, heap0⟩).1 := by rw [h2]
  subst this
  obtain ⟨N, hN⟩ := h3 { solver := {} } (fun l => .refl _) rfl rfl rfl
  obtain ⟨L, e1, _, e2⟩ := hN N (le_refl _)
  have e3 := puzzle_no_vars (a := { solver := {} }) (fun l => .refl _) (w := (nonoBuild [[]] [[]] ⟨.empty, heap0⟩).1) (by decide) (nonoDecode 1 vs) N
  simp only [List.length_cons, List.length_nil, Nat.zero_add] at e1
  rw [e3] at e1
  cases e1
  simp at e2

example : Pixmap [[0, 0], [0, 0]] 2 ∧ ∀ row ∈ [[0, 0], [0, 0]], (1 : Int) ∉ row := ⟨⟨by unfold Rect; decide, by decide, by decide⟩, by decide⟩

example : Pixmap [[1, 0, 1], [1, 1, 0]] 3 ∧ ∃ row ∈ [[1, 0, 1], [1, 1, 0]], 1 ∈ row :=
  ⟨⟨by unfold Rect; decide, by decide, by decide⟩, by decide⟩

end Satisfy.Props
