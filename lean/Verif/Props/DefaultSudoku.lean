import Verif.Props.DefaultPuzzles
import Mathlib.Tactic.IntervalCases
/-!
# The default sudoku has one completion; the program prints it: C74

A set of pairs of a cell and a digit is a number: the bit `9 (9 r + c) + d` says that the cell `(r, c)` may have the digit `d + 1`. A certificate is the
list of the choices made by a search, in order; `refute` follows it, and its answer is proved to be right for every schema and every certificate.
-/

namespace Satisfy.Props
open Satisfy

/-- The `k`-th of the nine pairs in the group `q`: the digits of a cell, or the places of a digit in a row, a column or a block. -/
def pair (q k : Nat) : Nat :=
  let a := q % 81 / 9
  let b := q % 9
  if q / 81 = 0 then (a * 9 + b) * 9 + k
  else if q / 81 = 1 then (a * 9 + k) * 9 + b
  else if q / 81 = 2 then (k * 9 + a) * 9 + b
  else ((3 * (a / 3) + k / 3) * 9 + (3 * (a % 3) + k % 3)) * 9 + b

/-- Nine ones with a distance of 9, of 81, and the pattern of a block. -/
def rowBits : Nat := 4731607904558235517441
def colBits : Nat := 1167984798111281975972140414126464956329959584774817500633911545450939078415135001842269096287259870371929439033588918494039604616244975783130639951473135664422345632834890477629229858611066306561
def boxBits : Nat := 1535494542225691871146501623492701001414383377362190849

/-- The pairs that cannot hold together with `i`, and `i`. -/
def rivals (i : Nat) : Nat :=
  (511 <<< (i / 9 * 9)) ||| (rowBits <<< (i / 81 * 81 + i % 9)) ||| (colBits <<< (i % 81)) |||
    (boxBits <<< (i / 243 * 243 + i % 81 / 27 * 27 + i % 9))

/-- What is left of `S` if `i` holds. -/
def settle (S i : Nat) : Nat := (S ^^^ (S &&& rivals i)) ||| (1 <<< i)

/-- Follow a certificate from the set `S`; the answer is the rest of the certificate. -/
def refute (goal : Nat) : Nat → Nat → List Nat → Option (List Nat)
  | 0, _, _ => none
  | _, _, [] => none
  | f + 1, S, q :: cert =>
    if q = 999 then (if S &&& goal = S then some cert else none)
    else (List.range 9).foldl (fun rest k => rest.bind (fun rest => if S.testBit (pair q k) then refute goal f (settle S (pair q k)) rest else some rest)) (some cert)

/-- The pair `i` holds in the grid `g`. -/
def Holds (g : Nat → Nat → Int) (i : Nat) : Prop := i < 729 ∧ g (i / 81) (i / 9 % 9) = ((i % 9 : Nat) : Int) + 1

/-- Specification: the digits 1 … 9 in every row, column and block. -/
def Grid (g : Nat → Nat → Int) : Prop :=
  (∀ r < 9, OneToNine (fun c => g r c)) ∧ (∀ c < 9, OneToNine (fun r => g r c)) ∧ ∀ i < 9, OneToNine (fun k => g (3 * (i / 3) + k / 3) (3 * (i % 3) + k % 3))

theorem bits_mem (l : List Nat) (s j : Nat) (h : (l.foldl (fun s k => s ||| 1 <<< k) s).testBit j = true) : s.testBit j = true ∨ j ∈ l := by
  induction l generalizing s with
  | nil => exact .inl h
  | cons k l ih =>
    rcases ih _ h with h | h
    · rw [Nat.testBit_or, Bool.or_eq_true] at h
      rcases h with h | h
      · exact .inl h
      · rw [Nat.one_shiftLeft, Nat.testBit_two_pow, decide_eq_true_eq] at h
        exact .inr (by rw [h]; exact List.mem_cons_self)
    · exact .inr (List.mem_cons_of_mem _ h)

theorem bits_of {l : List Nat} {n s j : Nat} (e : n = l.foldl (fun s k => s ||| 1 <<< k) 0) (h : (n <<< s).testBit j = true) : ∃ k ∈ l, j = s + k := by
  rw [Nat.testBit_shiftLeft, Bool.and_eq_true, decide_eq_true_eq, e] at h
  rcases bits_mem _ _ _ h.2 with h' | h'
  · rw [Nat.zero_testBit] at h'; cases h'
  · exact ⟨_, h', by omega⟩

theorem rival {i j : Nat} (h : (rivals i).testBit j = true) :
    (∃ k < 9, j = i / 9 * 9 + k) ∨ (∃ k < 9, j = i / 81 * 81 + i % 9 + 9 * k) ∨ (∃ k < 9, j = i % 81 + 81 * k) ∨
      ∃ k < 9, j = i / 243 * 243 + i % 81 / 27 * 27 + i % 9 + (k / 3 * 81 + k % 3 * 9) := by
  unfold rivals at h
  rw [Nat.testBit_or, Nat.testBit_or, Nat.testBit_or, Bool.or_eq_true, Bool.or_eq_true, Bool.or_eq_true] at h
  have get : ∀ {f : Nat → Nat} {s k}, k ∈ (List.range 9).map f → j = s + k → ∃ k < 9, j = s + f k := by
    intro f s k hk e
    obtain ⟨x, hx, rfl⟩ := List.mem_map.1 hk
    exact ⟨x, List.mem_range.1 hx, e⟩
  rcases h with ((h | h) | h) | h
  · obtain ⟨k, hk, e⟩ := bits_of (l := List.range 9) (by decide +kernel) h
    exact .inl ⟨k, List.mem_range.1 hk, e⟩
  · obtain ⟨k, hk, e⟩ := bits_of (l := (List.range 9).map (fun k => 9 * k)) (by decide +kernel) h
    exact .inr (.inl (get hk e))
  · obtain ⟨k, hk, e⟩ := bits_of (l := (List.range 9).map (fun k => 81 * k)) (by decide +kernel) h
    exact .inr (.inr (.inl (get hk e)))
  · obtain ⟨k, hk, e⟩ := bits_of (l := (List.range 9).map (fun k => k / 3 * 81 + k % 3 * 9)) (by decide +kernel) h
    exact .inr (.inr (.inr (get hk e)))

theorem digits_eq {r c d r' c' d' : Nat} (hc : c < 9) (hd : d < 9) (hc' : c' < 9) (hd' : d' < 9)
    (e : 81 * r + 9 * c + d = 81 * r' + 9 * c' + d') : r = r' ∧ c = c' ∧ d = d' := by
  have h1 : r = r' := by omega
  subst h1
  have h2 : c = c' := by omega
  subst h2
  exact ⟨rfl, rfl, by omega⟩

theorem place (i : Nat) (hi : i < 729) : ∃ r < 9, ∃ c < 9, ∃ d < 9, i = 81 * r + 9 * c + d ∧ i / 81 = r ∧ i / 9 % 9 = c ∧ i % 9 = d :=
  ⟨i / 81, by omega, i / 9 % 9, by omega, i % 9, by omega, by omega, rfl, rfl, rfl⟩

theorem holds_rival {g : Nat → Nat → Int} (hg : Grid g) {i j : Nat} (hi : Holds g i) (hj : Holds g j) (h : (rivals i).testBit j = true) : j = i := by
  obtain ⟨hi, ei⟩ := hi
  obtain ⟨hj, ej⟩ := hj
  obtain ⟨r, hr, c, hc, d, hd, i0, i1, i2, i3⟩ := place i hi
  obtain ⟨r', hr', c', hc', d', hd', j0, j1, j2, j3⟩ := place j hj
  rw [i1, i2, i3] at ei
  rw [j1, j2, j3] at ej
  have hp := (completion_iff.1 hg).2 r hr c hc r' hr' c' hc'
  have m1 : i / 9 * 9 = 81 * r + 9 * c := by clear ei ej hp h; omega
  have m2 : i % 81 = 9 * c + d := by clear ei ej hp h; omega
  have m5 : i / 81 * 81 + i % 9 = 81 * r + d := by rw [i1, i3, Nat.mul_comm]
  have m3 : i / 243 * 243 = 243 * (r / 3) := by rw [← i1, Nat.div_div_eq_div_mul, Nat.mul_comm]
  have m4 : i % 81 / 27 * 27 = 27 * (c / 3) := by
    rw [m2, Nat.mul_comm]
    congr 1
    clear * - hd
    omega
  have hrv := rival h
  rw [m5, m1, m2, m3, i3] at hrv
  have m4' : (9 * c + d) / 27 * 27 = 27 * (c / 3) := by rw [← m2]; exact m4
  rw [m4', j0] at hrv
  clear h m1 m2 m3 m4 m4' m5 i1 i2 i3 j1 j2 j3 hi hj
  rcases hrv with ⟨k, hk, e⟩ | ⟨k, hk, e⟩ | ⟨k, hk, e⟩ | ⟨k, hk, e⟩
  · obtain ⟨rfl, rfl, rfl⟩ := digits_eq hc' hd' hc hk e
    rw [ei] at ej
    rw [i0, j0]
    clear * - ej
    omega
  · obtain ⟨rfl, rfl, rfl⟩ := digits_eq hc' hd' hk hd (e.trans (show _ = 81 * r + 9 * k + d by clear * -; omega))
    obtain ⟨_, rfl⟩ := hp (.inl rfl) (by rw [ei, ej])
    rw [i0, j0]
  · obtain ⟨rfl, rfl, rfl⟩ := digits_eq hc' hd' hc hd (e.trans (show _ = 81 * k + 9 * c + d by clear * -; omega))
    obtain ⟨rfl, _⟩ := hp (.inr (.inl rfl)) (by rw [ei, ej])
    rw [i0, j0]
  · obtain ⟨u1, u2, u3⟩ := digits_eq hc' hd' (show 3 * (c / 3) + k % 3 < 9 by clear * - hc; omega) hd
      (e.trans (show _ = 81 * (3 * (r / 3) + k / 3) + 9 * (3 * (c / 3) + k % 3) + d by clear * -; omega))
    subst u3
    obtain ⟨rfl, rfl⟩ := hp (.inr (.inr ⟨by clear * - u1 hk; omega, by clear * - u2; omega⟩)) (by rw [ei, ej])
    rw [i0, j0]

theorem settle_sound {g : Nat → Nat → Int} (hg : Grid g) {S i : Nat} (hS : ∀ j, Holds g j → S.testBit j = true) (hi : Holds g i) :
    ∀ j, Holds g j → (settle S i).testBit j = true := by
  intro j hj
  unfold settle
  rw [Nat.testBit_or, Nat.testBit_xor, Nat.testBit_and, hS j hj, Nat.one_shiftLeft, Nat.testBit_two_pow]
  by_cases e : j = i
  · simp [e]
  · have : (rivals i).testBit j = false := by
      cases hr : (rivals i).testBit j with
      | false => rfl
      | true => exact absurd (holds_rival hg hi hj hr) e
    simp [this]

theorem holds_of {g : Nat → Nat → Int} {r c d : Nat} (hr : r < 9) (hc : c < 9) (hd : d < 9) (e : g r c = (d : Int) + 1) : Holds g ((r * 9 + c) * 9 + d) := by
  refine ⟨by omega, ?_⟩
  have e1 : ((r * 9 + c) * 9 + d) / 81 = r := by omega
  have e2 : ((r * 9 + c) * 9 + d) / 9 % 9 = c := by omega
  have e3 : ((r * 9 + c) * 9 + d) % 9 = d := by omega
  rw [e1, e2, e3, e]

theorem some_pair {g : Nat → Nat → Int} (hg : Grid g) (q : Nat) : ∃ k < 9, Holds g (pair q k) := by
  obtain ⟨h1, h2, h3⟩ := hg
  have ha : q % 81 / 9 < 9 := by omega
  have hb : q % 9 < 9 := by omega
  have one : ∀ {f : Nat → Int}, OneToNine f → ∃ k < 9, f k = ((q % 9 : Nat) : Int) + 1 := by
    intro f hf
    obtain ⟨k, hk, _⟩ := hf (((q % 9 : Nat) : Int) + 1) (by omega) (by omega)
    exact ⟨k, hk⟩
  unfold pair
  generalize q % 81 / 9 = a at ha
  generalize q % 9 = b at hb one
  simp only
  split_ifs
  · have := ((oneToNine_iff _).1 (h1 a ha)).1 b hb
    exact ⟨(g a b - 1).toNat, by omega, holds_of ha hb (by omega) (by omega)⟩
  · obtain ⟨k, hk, e⟩ := one (h1 a ha)
    exact ⟨k, hk, holds_of ha hk hb e⟩
  · obtain ⟨k, hk, e⟩ := one (h2 a ha)
    exact ⟨k, hk, holds_of hk ha hb e⟩
  · obtain ⟨k, hk, e⟩ := one (h3 a ha)
    exact ⟨k, hk, holds_of (by omega) (by omega) hb e⟩

theorem fold_some {α : Type} {step : List Nat → α → Option (List Nat)} {l : List α} {c : Option (List Nat)} {r : List Nat}
    (h : l.foldl (fun rest k => rest.bind (fun rest => step rest k)) c = some r) : (∃ c', c = some c') ∧ ∀ k ∈ l, ∃ rest r', step rest k = some r' := by
  induction l generalizing c with
  | nil => exact ⟨⟨r, h⟩, by simp⟩
  | cons k l ih =>
    obtain ⟨⟨c', h1⟩, h2⟩ := ih h
    obtain ⟨c0, rfl, h3⟩ := Option.bind_eq_some_iff.1 h1
    refine ⟨⟨c0, rfl⟩, fun x hx => ?_⟩
    rcases List.mem_cons.1 hx with rfl | hx
    · exact ⟨c0, c', h3⟩
    · exact h2 x hx

/-- If a certificate is accepted, then every pair that holds is in `goal`. -/
theorem refute_sound {g : Nat → Nat → Int} (hg : Grid g) {goal f S : Nat} {cert rest : List Nat} (hS : ∀ i, Holds g i → S.testBit i = true)
    (h : refute goal f S cert = some rest) : ∀ i, Holds g i → goal.testBit i = true := by
  induction f generalizing S cert rest with
  | zero => cases h
  | succ f ih =>
    cases cert with
    | nil => cases h
    | cons q cert =>
      rw [refute] at h
      split_ifs at h with h1 h2
      · intro i hi
        have := hS i hi
        rw [← h2, Nat.testBit_and, Bool.and_eq_true] at this
        exact this.2
      · obtain ⟨k, hk, hp⟩ := some_pair hg q
        obtain ⟨_, hf⟩ := fold_some (step := fun rest k => if S.testBit (pair q k) then refute goal f (settle S (pair q k)) rest else some rest) h
        obtain ⟨rest', r', h3⟩ := hf k (List.mem_range.2 hk)
        simp only [hS _ hp, if_true] at h3
        exact ih (settle_sound hg hS hp) h3

theorem fold_settle {g : Nat → Nat → Int} (hg : Grid g) {l : List Nat} {S : Nat} (hS : ∀ i, Holds g i → S.testBit i = true) (hl : ∀ i ∈ l, Holds g i) :
    ∀ i, Holds g i → (l.foldl settle S).testBit i = true := by
  induction l generalizing S with
  | nil => exact hS
  | cons i l ih => exact ih (settle_sound hg hS (hl i List.mem_cons_self)) (fun j hj => hl j (List.mem_cons_of_mem _ hj))

/-- The pairs of a list of rows of digits, 0 for a blank. -/
def pairsOf (rows : List (List Nat)) : List Nat :=
  (List.range 81).filterMap (fun i => let v := (rows.getD (i / 9) []).getD (i % 9) 0; if v = 0 then none else some (i * 9 + (v - 1)))

/-- The choices of a search in the default sudoku. -/
def defaultSearch : List Nat :=
  [132, 186, 321, 139, 60, 69, 58, 55, 59, 57, 147, 49, 67, 31, 50, 46, 51, 75, 76, 77, 124, 106, 14, 5, 10, 21, 25, 20, 1, 18, 178, 173, 67, 31, 63,
   72, 76, 119, 117, 108, 18, 9, 99, 122, 20, 2, 5, 3, 10, 1, 21, 25, 96, 87, 98, 55, 244, 184, 91, 145, 127, 80, 94, 130, 145, 127, 80, 130, 94, 85,
   89, 97, 25, 17, 6, 10, 1, 4, 5, 18, 21, 23, 33, 44, 35, 38, 29, 31, 34, 43, 37, 27, 30, 75, 147, 93, 84, 129, 89, 134, 143, 184, 192, 25, 18, 23, 26,
   83, 86, 84, 171, 44, 34, 43, 302, 173, 124, 115, 133, 212, 153, 160, 69, 152, 67, 136, 173, 164, 75, 124, 106, 97, 115, 49, 50, 39, 30, 21, 14, 5,
   10, 25, 17, 9, 16, 7, 13, 4, 20, 1, 18, 158, 212, 299, 178, 176, 104, 122, 113, 171, 18, 20, 25, 15, 6, 21, 23, 51, 49, 39, 30, 31, 43, 44, 46, 147,
   49, 51, 58, 96, 87, 18, 171, 176, 6, 15, 33, 104, 108, 122, 236, 4, 13, 94, 25, 7, 80, 44, 53, 47, 98, 116, 153, 190, 192, 63, 192, 59, 190, 79, 80,
   69, 75, 130, 157, 218, 106, 101, 281, 205, 51, 284, 15, 43, 34, 103, 124, 171, 99, 77, 101, 39, 30, 38, 29, 127, 130, 139, 251, 184, 183, 129, 223,
   25, 141, 192, 60, 58, 55, 59, 69, 93, 134, 147, 10, 14, 18, 1, 127, 14, 82, 127, 69, 152, 134, 210, 38, 74, 149, 212, 46, 49, 58, 31, 55, 64, 10, 1,
   18, 74, 55, 58, 67, 49, 31, 46, 27, 18, 158, 195, 7, 94, 157, 192, 55, 74, 38, 163, 165, 64, 69, 60, 59, 72, 79, 71, 96, 98, 134, 190, 127, 60, 59,
   69, 67, 68, 134, 212, 253, 49, 31, 46, 38, 27, 18, 158, 221, 104, 216, 26, 99, 81, 153, 9, 10, 14, 21, 45, 84, 138, 147, 160, 124, 133, 168, 155, 5,
   50, 46, 38, 158, 10, 14, 21, 84, 160, 124, 46, 38, 43, 34, 39, 30, 31, 35, 27, 50, 5, 155, 134, 197, 60, 69, 141, 195, 192, 55, 59, 74, 20, 25, 15,
   6, 10, 1, 2, 5, 4, 18, 23, 33, 38, 29, 43, 34, 7, 45, 64, 72, 79, 16, 80, 77, 14, 13, 49, 46, 37, 44, 36, 67, 31, 999, 59, 147, 212, 67, 74, 64, 63,
   71, 72, 75, 76, 110, 39, 119, 124, 25, 20, 18, 171, 233, 129, 60, 69, 215, 55, 58, 57, 74, 147, 10, 1, 18, 147, 183, 184, 192, 25, 15, 6, 10, 1, 14,
   18, 26, 23, 33, 43, 34, 93, 153, 160, 124, 46, 38, 29, 39, 31, 149, 184, 192, 202, 258, 58, 57, 198, 10, 15, 14, 18, 1, 127, 82, 127, 69, 152, 147,
   18, 10, 1, 6, 15, 33, 46, 55, 37, 44, 43, 34, 25, 16, 17, 8, 14, 13, 20, 71, 79, 74, 38, 29, 27, 31, 39, 21, 23, 63, 67, 49, 4, 58, 149, 158, 212,
   176, 173, 178, 49, 58, 195, 1, 6, 10, 82, 59, 57, 113, 111, 93, 84, 20, 25, 15, 14, 13, 4, 8, 16, 23, 31, 33, 10, 15, 13, 91, 59, 57, 192, 20, 25,
   178, 43, 300, 168, 79, 231, 240, 235, 74, 38, 29, 163, 129, 134, 197, 195, 192, 183, 251, 10, 244, 127, 91, 136, 139, 15, 13, 25, 85, 127, 82, 136,
   139, 141, 145, 79, 80, 69, 96, 93, 94, 85, 25, 15, 14, 26, 6, 4, 1, 8, 20, 18, 23, 44, 108, 141, 139, 79, 80, 69, 71, 218, 87, 96, 202, 198, 160, 97,
   51, 33, 106, 101, 192, 183, 25, 7, 43, 34, 85, 74, 93, 98, 115, 284, 96, 202, 198, 160, 212, 147, 138, 209, 259, 192, 183, 25, 94, 72, 18, 10, 1, 2,
   8, 15, 26, 46, 51, 49, 136, 69, 60, 323, 215, 79, 43, 34, 25, 80, 178, 223, 7, 16, 89, 85, 94, 96, 150, 141, 138, 147, 93, 84, 102, 157, 173, 198,
   205, 110, 21, 75, 16, 98, 94, 85, 74, 20, 157, 21, 75, 83, 106, 115, 281, 75, 115, 281, 80, 138, 147, 173, 178, 6, 15, 33, 44, 35, 17, 93, 25, 7, 98,
   94, 85, 74, 20, 64, 244, 176, 74, 72, 75, 124, 33, 15, 44, 35, 34, 93, 25, 7, 85, 94, 98, 147, 195, 96, 43, 190, 127, 10, 1, 6, 15, 18, 20, 25, 178,
   223, 226, 111, 190, 127, 178, 117, 119, 110, 99, 101, 153, 155, 83, 160, 21, 5, 3, 14, 13, 106, 183, 251, 15, 10, 55, 64, 158, 101, 108, 83, 69, 60,
   15, 51, 106, 122, 104, 86, 113, 115, 111, 158, 149, 153, 160, 155, 153, 160, 21, 5, 3, 14, 106, 115, 133, 183, 221, 1, 4, 7, 10, 15, 9, 43, 34, 16,
   55, 60, 57, 30, 134, 108, 99, 153, 272, 122, 104, 158, 149, 160, 106, 103, 74, 29, 2, 45, 9, 55, 155, 26, 17, 16, 7, 8, 15, 6, 5, 3, 13, 14, 21, 30,
   35, 86, 81, 90, 101, 83, 106, 110, 113, 115, 133, 155, 160]

/-- The digits of the default sudoku. -/
def defaultDigits : List (List Nat) := defaultSchema.map (List.map (fun v => (v.getD 0).toNat))

/-- The pairs of its solution. -/
def defaultGoal : Nat := 11203842243991563109025663966918579180653723036981629398755430441929982287994317566442754313298439366929712255065235453992019436356547957583163052831418037429273780534920827597832492049387703874646453423457634106212992

theorem default_refuted : refute defaultGoal 100 ((pairsOf defaultDigits).foldl settle (2 ^ 729 - 1)) defaultSearch = some [] := by decide +kernel

theorem default_goal : ∀ i ∈ List.range 729, defaultGoal.testBit i = true → (defaultAnswer.getD (i / 81) []).getD (i / 9 % 9) 0 = i % 9 + 1 := by decide +kernel

theorem default_given : ∀ i ∈ pairsOf defaultDigits, i < 729 ∧ (defaultSchema.getD (i / 81) [])[i / 9 % 9]? = some (some (((i % 9 : Nat) : Int) + 1)) ∧
    defaultSchema[i / 81]? = some (defaultSchema.getD (i / 81) []) := by decide +kernel

/-- The solution of the default sudoku as a board. -/
def defaultBoard : List (List (Option Int)) := defaultAnswer.map (List.map (fun v : Nat => some (v : Int)))

/-- The default sudoku has one completion. -/
theorem default_unique {B : List (List (Option Int))} : Completion defaultSchema B ↔ B = defaultBoard := by
  have only : ∀ {B}, Completion defaultSchema B → B = defaultBoard := by
    rintro B ⟨g, rfl, h1, hg⟩
    have h0 : ∀ i, Holds g i → (2 ^ 729 - 1).testBit i = true := by
      rintro i ⟨hi, _⟩
      rw [Nat.testBit_two_pow_sub_one, decide_eq_true_eq]
      exact hi
    have hl : ∀ i ∈ pairsOf defaultDigits, Holds g i := by
      intro i hi
      obtain ⟨a1, a2, a3⟩ := default_given i hi
      exact ⟨a1, h1 _ _ _ _ a3 a2 (by omega)⟩
    have key := refute_sound hg (fold_settle hg h0 hl) default_refuted
    have hv : ∀ r < 9, ∀ c < 9, g r c = (((defaultAnswer.getD r []).getD c 0 : Nat) : Int) := by
      intro r hr c hc
      have := ((oneToNine_iff _).1 (hg.1 r hr)).1 c hc
      have hh : Holds g ((r * 9 + c) * 9 + (g r c - 1).toNat) := holds_of hr hc (by omega) (by omega)
      have := default_goal _ (List.mem_range.2 hh.1) (key _ hh)
      have e1 : ((r * 9 + c) * 9 + (g r c - 1).toNat) / 81 = r := by omega
      have e2 : ((r * 9 + c) * 9 + (g r c - 1).toNat) / 9 % 9 = c := by omega
      rw [e1, e2] at this
      rw [this]
      omega
    have e : defaultBoard = (List.range 9).map (fun r => (List.range 9).map (fun c => some (((defaultAnswer.getD r []).getD c 0 : Nat) : Int))) := by decide +kernel
    rw [e]
    refine List.map_congr_left (fun r hr => List.map_congr_left (fun c hc => ?_))
    rw [hv r (List.mem_range.1 hr) c (List.mem_range.1 hc)]
  refine ⟨only, ?_⟩
  rintro rfl
  obtain ⟨B, hB⟩ := default_completion
  exact only hB ▸ hB

/-- The picture of the default schema. -/
def defaultDrawn : List String :=
  ["┌─────────┬─────────┬─────────┐",
   "│ 8  .  . │ .  .  . │ .  .  . │",
   "│ .  .  3 │ 6  .  . │ .  .  . │",
   "│ .  7  . │ .  9  . │ 2  .  . │",
   "├─────────┼─────────┼─────────┤",
   "│ .  5  . │ .  .  7 │ .  .  . │",
   "│ .  .  . │ .  4  5 │ 7  .  . │",
   "│ .  .  . │ 1  .  . │ .  3  . │",
   "├─────────┼─────────┼─────────┤",
   "│ .  .  1 │ .  .  . │ .  6  8 │",
   "│ .  .  8 │ 5  .  . │ .  1  . │",
   "│ .  9  . │ .  .  . │ 4  .  . │",
   "└─────────┴─────────┴─────────┘"]

/-- The picture of its completion. -/
def defaultSolved : List String :=
  ["┌─────────┬─────────┬─────────┐",
   "│ 8  1  2 │ 7  5  3 │ 6  4  9 │",
   "│ 9  4  3 │ 6  8  2 │ 1  7  5 │",
   "│ 6  7  5 │ 4  9  1 │ 2  8  3 │",
   "├─────────┼─────────┼─────────┤",
   "│ 1  5  4 │ 2  3  7 │ 8  9  6 │",
   "│ 3  6  9 │ 8  4  5 │ 7  2  1 │",
   "│ 2  8  7 │ 1  6  9 │ 5  3  4 │",
   "├─────────┼─────────┼─────────┤",
   "│ 5  2  1 │ 9  7  4 │ 3  6  8 │",
   "│ 4  3  8 │ 5  2  6 │ 9  1  7 │",
   "│ 7  9  6 │ 3  1  8 │ 4  5  2 │",
   "└─────────┴─────────┴─────────┘"]

/-- The picture of a board, by computation. -/
theorem drawn {G : List (List (Option Int))} (h : Schema9 G) {ls : List (List Char)} (p : GridPicture (fun r c => (schemaAt G (r, c)).getD none) ls)
    {out : List String} (e : (sudokuBoard G).toOption.map (List.map String.ofList) = some out) : ls = out.map String.toList := by
  obtain ⟨ls', h1, h2⟩ := C55_sudoku h
  rw [h1] at e
  have e : ls'.map String.ofList = out := Option.some.inj e
  rw [← e, p.unique h2, List.map_map]
  simp [Function.comp_def]

/-- `satisfy sudoku`: everything printed but the number of seconds. -/
theorem C74_sudoku_text (m : Machine) (hs : ∀ l, (m.shuffle l).Perm l) (ho : ∀ l, (m.order l).Perm l) (hj : ReadsJson m) :
    ∃ N, ∀ n ≥ N, ∃ secs, program m ["sudoku".toList] n =
      .text (unlines (("No input file - using default schema:" :: defaultSudoku ++ ["", "=== sudoku schema ==="] ++ defaultDrawn ++ "\n=== solution 1 ===" :: defaultSolved ++
        ["\nFound 1 partial solution in " ++ m.fmt secs ++ " seconds [limit reached]"]).map String.toList)) := by
  obtain ⟨board, h1, N, h2⟩ := C74_sudoku_default m hs ho hj
  have e1 := drawn default_nine h1 (out := defaultDrawn) (by decide +kernel)
  refine ⟨N, fun n hn => ?_⟩
  obtain ⟨lines, h3, B, ls, secs, h4, h5, rfl⟩ := h2 n hn
  have e2 := drawn (completion_schema h4).1 h5 (out := defaultSolved) (by rw [default_unique.1 h4]; decide +kernel)
  refine ⟨secs, ?_⟩
  rw [h3, e1, e2]
  refine congrArg (fun l => Output.text (unlines l)) ?_
  generalize "\nFound 1 partial solution in " ++ m.fmt secs ++ " seconds [limit reached]" = last
  simp only [List.map_append, List.map_cons, List.map_nil, List.cons_append, List.append_assoc, List.nil_append]
  rfl

/-- `satisfy sudoku` -/
example := C74_sudoku_text jsonMachine (fun _ => .refl _) (fun _ => .refl _) jsonMachine_reads

end Satisfy.Props
