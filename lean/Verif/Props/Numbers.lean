import Verif.Props.Expr
import Mathlib.Data.Int.Bitwise
import Mathlib.Tactic.Linarith
import Mathlib.Tactic.Ring

/-!
# C01, between numbers

The operators of expressions are Python's operators on ints once the values of the operands are known. Here these are described by what Python's reference says about them, without the functions
used in the model: the quotient is rounded down, the remainder has the sign of the divisor, `&` and `|` work bit by bit on the two's complement.
-/

namespace Satisfy.Props

variable {ρ : Store} {σ : Subst}

/-- `q` is the quotient `x / y` rounded down. -/
def Floor (x y q : Int) : Prop := (0 < y ∧ y * q ≤ x ∧ x < y * (q + 1)) ∨ (y < 0 ∧ y * (q + 1) < x ∧ x ≤ y * q)

instance (x y q : Int) : Decidable (Floor x y q) := inferInstanceAs (Decidable (_ ∨ _))

/-- There is only one such number. -/
theorem floor_unique {x y q q' : Int} (h : Floor x y q) (h' : Floor x y q') : q = q' := by
  rcases h with ⟨hy, h1, h2⟩ | ⟨hy, h1, h2⟩ <;> rcases h' with ⟨hy', h1', h2'⟩ | ⟨hy', h1', h2'⟩ <;> try omega
  all_goals
    have a' : q' < q + 1 := by nlinarith
    have b' : q < q' + 1 := by nlinarith
    omega

theorem fdiv_floor (x : Int) {y : Int} (hy : y ≠ 0) : Floor x y (x.fdiv y) := by
  have hm := Int.mul_fdiv_add_fmod x y
  rcases lt_or_gt_of_ne hy with h | h
  · right
    have h1 := Int.fmod_nonneg_of_pos (-x) (b := -y) (by omega)
    have h2 := Int.fmod_lt_of_pos (-x) (b := -y) (by omega)
    rw [Int.neg_fmod_neg] at h1 h2
    rw [mul_add]
    omega
  · left
    have h1 := Int.fmod_nonneg_of_pos x h
    have h2 := Int.fmod_lt_of_pos x h
    rw [mul_add]
    omega

/-- Bit `k` of the two's complement of `x`. -/
def Bit (x : Int) (k : Nat) : Prop := (x / 2 ^ k) % 2 = 1

instance (x : Int) (k : Nat) : Decidable (Bit x k) := inferInstanceAs (Decidable (_ = _))

theorem bit_testBit (x : Int) (k : Nat) : Bit x k ↔ x.testBit k = true := by
  unfold Bit
  cases x with
  | ofNat m =>
    rw [show Int.testBit (.ofNat m) k = Nat.testBit m k from rfl, Nat.testBit_eq_decide_div_mod_eq, decide_eq_true_iff]
    rw [show (Int.ofNat m / 2 ^ k) = ((m / 2 ^ k : Nat) : Int) by push_cast; rfl]
    omega
  | negSucc m =>
    rw [show Int.testBit (.negSucc m) k = !(Nat.testBit m k) from rfl, Nat.testBit_eq_decide_div_mod_eq]
    rw [Int.negSucc_ediv _ (by positivity)]
    have : ((m : Int) / 2 ^ k) = ((m / 2 ^ k : Nat) : Int) := by push_cast; rfl
    simp only [Bool.not_eq_true', decide_eq_false_iff_not]
    rw [show Int.ediv (m : Int) (2 ^ k) = ((m / 2 ^ k : Nat) : Int) from this]
    omega

/-- A number is determined by its bits. -/
theorem bit_unique {x y : Int} (h : ∀ k, Bit x k ↔ Bit y k) : x = y := by
  have h' : ∀ k, x.testBit k = y.testBit k := fun k => by
    have := h k
    rw [bit_testBit, bit_testBit] at this
    exact Bool.eq_iff_iff.2 this
  have far : ∀ m n : Nat, ∃ k, m.testBit k = false ∧ n.testBit k = false := fun m n =>
    ⟨m + n, Nat.testBit_lt_two_pow (lt_of_lt_of_le Nat.lt_two_pow_self (Nat.pow_le_pow_right (by omega) (by omega))),
      Nat.testBit_lt_two_pow (lt_of_lt_of_le Nat.lt_two_pow_self (Nat.pow_le_pow_right (by omega) (by omega)))⟩
  cases x with
  | ofNat m =>
    cases y with
    | ofNat n => exact congrArg Int.ofNat (Nat.eq_of_testBit_eq h')
    | negSucc n =>
      obtain ⟨k, hm, hn⟩ := far m n
      have := h' k
      simp [Int.testBit, hm, hn] at this
  | negSucc m =>
    cases y with
    | ofNat n =>
      obtain ⟨k, hm, hn⟩ := far m n
      have := h' k
      simp [Int.testBit, hm, hn] at this
    | negSucc n =>
      refine congrArg Int.negSucc (Nat.eq_of_testBit_eq fun k => ?_)
      have := h' k
      simpa [Int.testBit] using this

theorem bitAnd_bits (x y : Int) (k : Nat) : Bit (pyBitAnd x y) k ↔ Bit x k ∧ Bit y k := by
  simp only [bit_testBit]
  cases x with
  | ofNat m => cases y with
    | ofNat n => simp [pyBitAnd, Int.testBit]
    | negSucc n => cases hm : m.testBit k <;> cases hn : n.testBit k <;> simp [pyBitAnd, Int.testBit, hm, hn]
  | negSucc m => cases y with
    | ofNat n => cases hm : m.testBit k <;> cases hn : n.testBit k <;> simp [pyBitAnd, Int.testBit, hm, hn]
    | negSucc n => cases hm : m.testBit k <;> cases hn : n.testBit k <;> simp [pyBitAnd, Int.testBit, hm, hn]

theorem bitOr_bits (x y : Int) (k : Nat) : Bit (pyBitOr x y) k ↔ Bit x k ∨ Bit y k := by
  simp only [bit_testBit]
  cases x with
  | ofNat m => cases y with
    | ofNat n => simp [pyBitOr, Int.testBit]
    | negSucc n => cases hm : m.testBit k <;> cases hn : n.testBit k <;> simp [pyBitOr, Int.testBit, hm, hn]
  | negSucc m => cases y with
    | ofNat n => cases hm : m.testBit k <;> cases hn : n.testBit k <;> simp [pyBitOr, Int.testBit, hm, hn]
    | negSucc n => cases hm : m.testBit k <;> cases hn : n.testBit k <;> simp [pyBitOr, Int.testBit, hm, hn]

/-- C01, `/`: the value is the quotient rounded down. -/
theorem C01_quotient {e : Expr} {b : Obj} {x y : Int} (ha : e.eval ρ σ = .ok x) (hb : b.eval ρ σ = .ok y) (hy : y ≠ 0) :
    ∃ o q, (Obj.expr e).div b = .ok o ∧ o.eval ρ σ = .ok q ∧ Floor x y q := by
  obtain ⟨o, ho, hv⟩ := C01_div ha hb hy
  exact ⟨o, _, ho, hv, fdiv_floor x hy⟩

/-- C01, `%`: the value is what the quotient rounded down leaves. -/
theorem C01_remainder {a b : Obj} {x y : Int} (ha : a.eval ρ σ = .ok x) (hb : b.eval ρ σ = .ok y) (hy : y ≠ 0) :
    ∃ o r q, a.mod b = .ok o ∧ o.eval ρ σ = .ok r ∧ Floor x y q ∧ x = y * q + r := by
  obtain ⟨o, ho, hv⟩ := C01_mod ha hb hy
  exact ⟨o, _, _, ho, hv, fdiv_floor x hy, (Int.mul_fdiv_add_fmod x y).symm⟩

/-- C01, `&` and `|` between two plain numbers (as in `2 & 3 == x`, which Python reads as `(2 & 3) == x`): bit by bit. -/
theorem C01_bits (x y : Int) : (∃ z, (Obj.int x).and (.int y) = .int z ∧ ∀ k, Bit z k ↔ Bit x k ∧ Bit y k) ∧
    ∃ z, (Obj.int x).or (.int y) = .int z ∧ ∀ k, Bit z k ↔ Bit x k ∨ Bit y k :=
  ⟨⟨_, rfl, bitAnd_bits x y⟩, ⟨_, rfl, bitOr_bits x y⟩⟩

example : Floor (-7) 2 (-4) ∧ Floor 7 (-2) (-4) ∧ ¬ Floor (-7) 2 (-3) := by decide

example : (Obj.int (-6)).or (.int 3) = .int (-5) ∧ (Obj.int (-6)).and (.int 3) = .int 2 := ⟨rfl, rfl⟩

example : ¬ Bit (-6) 0 ∧ Bit (-6) 1 ∧ ¬ Bit (-6) 2 ∧ Bit (-6) 3 ∧ Bit (-6) 100 := by decide

end Satisfy.Props
