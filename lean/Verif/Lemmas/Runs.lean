import Verif.Nonogram
import Verif.SpecNonogram
import Mathlib.Tactic.Linarith
/-! Runs of filled cells. -/

namespace Satisfy

/-- The runs of `l` when `n` filled cells come before it. -/
def runsFrom (n : Nat) (l : List Int) : List Int :=
  match l.splitOnP (fun v => v == 0) with
  | [] => []
  | b :: bs => ((((n + b.length : Nat) : Int) :: bs.map (fun b => (b.length : Int)))).filter (fun n => n ≠ 0)

theorem runs_eq (l : List Int) : runs l = runsFrom 0 l := by
  unfold runs runsFrom
  cases h : l.splitOnP (fun v => v == 0) with
  | nil => exact absurd h (List.splitOnP_ne_nil _ _)
  | cons b bs => simp

theorem runsFrom_nil (n : Nat) : runsFrom n [] = if n = 0 then [] else [(n : Int)] := by
  by_cases h : n = 0 <;> simp [runsFrom, List.splitOnP_nil, h]

theorem runsFrom_zero (n : Nat) (l : List Int) : runsFrom n (0 :: l) = (if n = 0 then [] else [(n : Int)]) ++ runs l := by
  unfold runsFrom runs
  rw [List.splitOnP_cons_eq_if_modifyHead]
  by_cases h : n = 0 <;> simp [h]

theorem runsFrom_one (n : Nat) {v : Int} (hv : v ≠ 0) (l : List Int) : runsFrom n (v :: l) = runsFrom (n + 1) l := by
  unfold runsFrom
  rw [List.splitOnP_cons_eq_if_modifyHead]
  cases h : l.splitOnP (fun v => v == 0) with
  | nil => exact absurd h (List.splitOnP_ne_nil _ _)
  | cons b bs =>
    have : n + (b.length + 1) = n + 1 + b.length := by omega
    simp [hv, this]

theorem clueLoop_eq (l row : List Int) (n : Nat) : clueLoop l row n = row ++ runsFrom n l := by
  induction l generalizing row n with
  | nil =>
    rw [runsFrom_nil, clueLoop]
    by_cases h : n = 0 <;> simp [h]
  | cons v l ih =>
    rw [clueLoop]
    by_cases hv : v = 0
    · subst hv
      rw [if_neg (by simp), runsFrom_zero, runs_eq]
      have := ih (if (n : Int) ≠ 0 then row ++ [(n : Int)] else row) 0
      rw [show ((0 : Nat) : Int) = 0 from rfl] at this
      rw [this]
      by_cases h : n = 0 <;> simp [h]
    · rw [if_pos hv, runsFrom_one n hv, ← ih]
      rfl

/-- The blocks of the given sizes, at the given positions, in order with gaps, in `[lo, N)`. -/
def Fits : Int → Int → List Int → List Int → Prop
  | _, _, [], [] => True
  | lo, N, s :: L, p :: P => 0 < s ∧ lo ≤ p ∧ p + s ≤ N ∧ Fits (p + s + 1) N L P
  | _, _, _, _ => False

theorem Fits.mono {lo lo' N : Int} {L P : List Int} (h : Fits lo N L P) (hlo : lo' ≤ lo) : Fits lo' N L P := by
  cases L with
  | nil => cases P with
    | nil => trivial
    | cons p P => exact h
  | cons s L => cases P with
    | nil => exact h
    | cons p P => exact ⟨h.1, by have := h.2.1; omega, h.2.2⟩

theorem Fits.range {lo N : Int} {L P : List Int} (h : Fits lo N L P) {c : Int} (hc : Cover L P c) : lo ≤ c ∧ c < N := by
  induction L generalizing lo P with
  | nil => cases P <;> exact absurd hc (by simp [Cover])
  | cons s L ih => cases P with
    | nil => exact absurd hc (by simp [Cover])
    | cons p P =>
      obtain ⟨h1, h2, h3, h4⟩ := h
      rcases hc with hc | hc
      · omega
      · have := ih h4 hc; omega

theorem Loose.range {lo N : Int} {L P : List Int} (h : Loose lo N L P) {c : Int} (hc : Cover L P c) : lo ≤ c ∧ c < N := by
  induction L generalizing lo P with
  | nil => cases P <;> exact absurd hc (by simp [Cover])
  | cons s L ih => cases P with
    | nil => exact absurd hc (by simp [Cover])
    | cons p P =>
      obtain ⟨h1, h2, h3, h4⟩ := h
      rcases hc with hc | hc
      · omega
      · have := ih h4 hc; omega

theorem Loose.fits {lo N : Int} {L P : List Int} (h : Loose lo N L P) (hp : ∀ s ∈ L, 0 < s) : Fits lo N L P := by
  induction L generalizing lo P with
  | nil => cases P with
    | nil => trivial
    | cons p P => exact absurd h (by simp [Loose])
  | cons s L ih => cases P with
    | nil => exact absurd h (by simp [Loose])
    | cons p P => exact ⟨hp s (by simp), h.2.1, h.2.2.1, ih h.2.2.2 (fun t ht => hp t (by simp [ht]))⟩

theorem Fits.loose {lo N : Int} {L P : List Int} (h : Fits lo N L P) : Loose lo N L P := by
  induction L generalizing lo P with
  | nil => cases P with
    | nil => trivial
    | cons p P => exact absurd h (by simp [Fits])
  | cons s L ih => cases P with
    | nil => exact absurd h (by simp [Fits])
    | cons p P => exact ⟨Int.le_of_lt h.1, h.2.1, h.2.2.1, ih h.2.2.2⟩

/-- Leaving the blocks of length 0 out. -/
theorem Loose.drop {lo N : Int} {L P : List Int} (h : Loose lo N L P) :
    ∃ P', Fits lo N (L.filter (fun s => s ≠ 0)) P' ∧ ∀ c, Cover (L.filter (fun s => s ≠ 0)) P' c ↔ Cover L P c := by
  induction L generalizing lo P with
  | nil => cases P with
    | nil => exact ⟨[], trivial, fun c => by simp [Cover]⟩
    | cons p P => exact absurd h (by simp [Loose])
  | cons s L ih => cases P with
    | nil => exact absurd h (by simp [Loose])
    | cons p P =>
      obtain ⟨h1, h2, h3, h4⟩ := h
      obtain ⟨P', h5, h6⟩ := ih h4
      by_cases hs : s = 0
      · subst hs
        refine ⟨P', by simpa using h5.mono (by omega), fun c => ?_⟩
        simp only [ne_eq, not_true_eq_false, decide_false, Bool.false_eq_true, not_false_eq_true, List.filter_cons_of_neg, Cover]
        rw [h6 c]
        constructor
        · exact .inr
        · rintro (h | h)
          · omega
          · exact h
      · refine ⟨p :: P', ?_, fun c => ?_⟩
        · rw [List.filter_cons_of_pos (by simpa using hs)]
          exact ⟨by omega, h2, h3, h5⟩
        · rw [List.filter_cons_of_pos (by simpa using hs)]
          simp only [Cover]
          rw [h6 c]

/-- Sizes and positions are determined by the covered cells. -/
theorem fits_unique {lo N : Int} {L P L' P' : List Int} (h : Fits lo N L P) (h' : Fits lo N L' P') (hc : ∀ c, Cover L P c ↔ Cover L' P' c) :
    L = L' ∧ P = P' := by
  induction L generalizing lo P L' P' with
  | nil =>
    cases P with
    | cons p P => exact absurd h (by simp [Fits])
    | nil =>
      cases L' with
      | nil => cases P' with
        | nil => exact ⟨rfl, rfl⟩
        | cons p P => exact absurd h' (by simp [Fits])
      | cons s L' => cases P' with
        | nil => exact absurd h' (by simp [Fits])
        | cons p P' => exact absurd ((hc p).2 (.inl ⟨le_refl p, by have := h'.1; omega⟩)) (by simp [Cover])
  | cons s L ih =>
    cases P with
    | nil => exact absurd h (by simp [Fits])
    | cons p P =>
      cases L' with
      | nil => cases P' with
        | nil => exact absurd ((hc p).1 (.inl ⟨le_refl p, by have := h.1; omega⟩)) (by simp [Cover])
        | cons p' P' => exact absurd h' (by simp [Fits])
      | cons s' L' =>
        cases P' with
        | nil => exact absurd h' (by simp [Fits])
        | cons p' P' =>
          obtain ⟨a1, a2, a3, a4⟩ := h
          obtain ⟨b1, b2, b3, b4⟩ := h'
          have hp : p = p' := by
            have e1 : Cover (s :: L) (p :: P) p' := (hc p').2 (.inl ⟨le_refl _, by omega⟩)
            have e2 : Cover (s' :: L') (p' :: P') p := (hc p).1 (.inl ⟨le_refl _, by omega⟩)
            have f1 : p ≤ p' := by
              rcases e1 with e | e
              · exact e.1
              · have := (a4.range e).1; omega
            have f2 : p' ≤ p := by
              rcases e2 with e | e
              · exact e.1
              · have := (b4.range e).1; omega
            omega
          subst hp
          have hs : s = s' := by
            have e1 : ¬ Cover (s :: L) (p :: P) (p + s) := by
              rintro (e | e)
              · omega
              · have := (a4.range e).1; omega
            have e2 : ¬ Cover (s' :: L') (p :: P') (p + s') := by
              rintro (e | e)
              · omega
              · have := (b4.range e).1; omega
            rw [hc] at e1
            rw [← hc] at e2
            have f1 : ¬ (p + s < p + s') := fun hlt => e1 (.inl ⟨by omega, hlt⟩)
            have f2 : ¬ (p + s' < p + s) := fun hlt => e2 (.inl ⟨by omega, hlt⟩)
            omega
          subst hs
          have := ih a4 b4 (by
            intro c
            constructor
            · intro h1
              have hr := a4.range h1
              rcases (hc c).1 (.inr h1) with h2 | h2
              · omega
              · exact h2
            · intro h1
              have hr := b4.range h1
              rcases (hc c).2 (.inr h1) with h2 | h2
              · omega
              · exact h2)
          exact ⟨by rw [this.1], by rw [this.2]⟩

/-- The filled cells of a line are blocks of the sizes of its runs. -/
theorem runsFrom_fits (l : List Int) (n : Nat) (lo : Int) : ∃ P, Fits (lo - n) (lo + l.length) (runsFrom n l) P ∧
    ∀ c, Cover (runsFrom n l) P c ↔ (lo - n ≤ c ∧ c < lo) ∨ ∃ (i : Nat) (v : Int), l[i]? = some v ∧ v ≠ 0 ∧ c = lo + i := by
  induction l generalizing n lo with
  | nil =>
    rw [runsFrom_nil]
    by_cases h : n = 0
    · subst h
      refine ⟨[], by simp [Fits], fun c => ?_⟩
      simp [Cover]
    · rw [if_neg h]
      refine ⟨[lo - n], ⟨by omega, le_refl _, by simp, trivial⟩, fun c => ?_⟩
      simp [Cover]
  | cons v l ih =>
    have hshift : ∀ c, (∃ (i : Nat) (u : Int), (v :: l)[i]? = some u ∧ u ≠ 0 ∧ c = lo + i) ↔
        (v ≠ 0 ∧ c = lo) ∨ ∃ (i : Nat) (u : Int), l[i]? = some u ∧ u ≠ 0 ∧ c = lo + 1 + i := by
      intro c
      constructor
      · rintro ⟨i, u, h1, h2, h3⟩
        cases i with
        | zero => simp at h1; subst h1; exact .inl ⟨h2, by simpa using h3⟩
        | succ i => exact .inr ⟨i, u, by simpa using h1, h2, by push_cast at h3; omega⟩
      · rintro (⟨h1, h2⟩ | ⟨i, u, h1, h2, h3⟩)
        · exact ⟨0, v, rfl, h1, by simpa using h2⟩
        · exact ⟨i + 1, u, by simpa using h1, h2, by push_cast; omega⟩
    by_cases hv : v = 0
    · subst hv
      rw [runsFrom_zero, runs_eq]
      obtain ⟨P, h1, h2⟩ := ih 0 (lo + 1)
      by_cases h : n = 0
      · subst h
        refine ⟨P, ?_, fun c => ?_⟩
        · rw [if_pos rfl, List.nil_append]
          have h1' := h1.mono (lo' := lo - ((0 : Nat) : Int)) (by omega)
          rw [show lo + ((0 :: l).length : Int) = lo + 1 + (l.length : Int) by push_cast [List.length_cons]; omega]
          exact h1'
        · rw [if_pos rfl, List.nil_append, h2, hshift]
          simp only [ne_eq, not_true, false_and, false_or]
          refine ⟨?_, ?_⟩
          · rintro (h3 | h3)
            · omega
            · exact .inr h3
          · rintro (h3 | h3)
            · omega
            · exact .inr h3
      · rw [if_neg h]
        refine ⟨(lo - n) :: P, ⟨by omega, le_refl _, by push_cast [List.length_cons]; omega, ?_⟩, fun c => ?_⟩
        · have h1' := h1.mono (lo' := lo - n + n + 1) (by omega)
          rw [show lo + ((0 :: l).length : Int) = lo + 1 + (l.length : Int) by push_cast [List.length_cons]; omega]
          exact h1'
        · show ((lo - n ≤ c ∧ c < lo - n + n) ∨ Cover (runsFrom 0 l) P c) ↔ _
          rw [h2, hshift]
          simp only [ne_eq, not_true, false_and, false_or]
          refine ⟨?_, ?_⟩
          · rintro (h3 | h3 | h3)
            · left; omega
            · omega
            · exact .inr h3
          · rintro (h3 | h3)
            · left; omega
            · exact .inr (.inr h3)
    · rw [runsFrom_one n hv]
      obtain ⟨P, h1, h2⟩ := ih (n + 1) (lo + 1)
      refine ⟨P, ?_, fun c => ?_⟩
      · rw [show lo + ((v :: l).length : Int) = lo + 1 + (l.length : Int) by push_cast [List.length_cons]; omega,
          show lo - (n : Int) = lo + 1 - ((n + 1 : Nat) : Int) by push_cast; omega]
        exact h1
      · rw [h2, hshift]
        constructor
        · rintro (h3 | h3)
          · by_cases hc : c = lo
            · exact .inr (.inl ⟨hv, hc⟩)
            · left; push_cast at h3; omega
          · exact .inr (.inr h3)
        · rintro (h3 | ⟨_, h3⟩ | h3)
          · left; push_cast; omega
          · left; push_cast; omega
          · exact .inr h3

/-- The runs of a line are `L` exactly if blocks of these sizes cover its filled cells. -/
theorem runs_iff (l L : List Int) : runs l = L ↔ ∃ P, Fits 0 l.length L P ∧ ∀ c : Nat, c < l.length → (Cover L P c ↔ l.getD c 0 ≠ 0) := by
  obtain ⟨P0, h1, h2⟩ := runsFrom_fits l 0 0
  rw [← runs_eq] at h1 h2
  simp only [Nat.cast_zero, sub_zero, zero_add] at h1 h2
  have hget : ∀ c : Nat, Cover (runs l) P0 c ↔ l.getD c 0 ≠ 0 := by
    intro c
    rw [h2]
    constructor
    · rintro (h | ⟨i, v, h3, h4, h5⟩)
      · omega
      · have : c = i := by omega
        subst this
        simp [List.getD, h3, h4]
    · intro h
      cases h3 : l[c]? with
      | none => simp [List.getD, h3] at h
      | some v => exact .inr ⟨c, v, h3, by simpa [List.getD, h3] using h, rfl⟩
  constructor
  · rintro rfl
    exact ⟨P0, h1, fun c _ => hget c⟩
  · rintro ⟨P, h3, h4⟩
    refine (fits_unique h1 h3 (fun c => ?_)).1
    by_cases hc : 0 ≤ c ∧ c < l.length
    · obtain ⟨k, rfl⟩ := Int.eq_ofNat_of_zero_le hc.1
      rw [h4 k (by omega), ← hget k]
    · exact ⟨fun h => absurd (h1.range h) hc, fun h => absurd (h3.range h) hc⟩

end Satisfy
