import Verif.Boards
import Verif.Props.Demo
import Verif.Props.Queens
import Verif.Props.Sudoku
import Verif.Props.Einstein
/-!
# Printed boards: C55
-/

namespace Satisfy.Props
open Satisfy

/-- The character in line `y`, column `x`. -/
def charAt (ls : List (List Char)) (y x : Nat) : Option Char := ls[y]?.bind (fun l => l[x]?)

/-- Specification: the character of a frame at line `y`, column `x`: lines at the multiples of `a` and of `b`, from 0 to `h` and to `w`. -/
def frameChar (a b h w y x : Nat) : Char :=
  if y % a = 0 ∧ x % b = 0 then
    if y = 0 then (if x = 0 then '┌' else if x = w then '┐' else '┬')
    else if y = h then (if x = 0 then '└' else if x = w then '┘' else '┴')
    else (if x = 0 then '├' else if x = w then '┤' else '┼')
  else if y % a = 0 then '─'
  else if x % b = 0 then '│'
  else ' '

/-! ## Chessboards -/

/-- Specification: the picture of an `n × n` chessboard. The field `(r, c)` is at line `2r + 1`, column `4c + 2`, with a queen exactly where `q` says;
the rest is a frame with a line at every second line and every fourth column. -/
structure ChessPicture (n : Nat) (q : Nat → Nat → Prop) (ls : List (List Char)) : Prop where
  height : ls.length = 2 * n + 1
  width : ∀ l ∈ ls, l.length = 4 * n + 1
  field : ∀ r < n, ∀ c < n, (q r c → charAt ls (2 * r + 1) (4 * c + 2) = some '♛') ∧ (¬ q r c → charAt ls (2 * r + 1) (4 * c + 2) = some ' ')
  frame : ∀ y ≤ 2 * n, ∀ x ≤ 4 * n, (¬ ∃ r < n, ∃ c < n, y = 2 * r + 1 ∧ x = 4 * c + 2) → charAt ls y x = some (frameChar 2 4 (2 * n) (4 * n) y x)

/-- Lists of lines with the same characters are the same. -/
theorem lines_ext {h w : Nat} {ls ls' : List (List Char)} (h1 : ls.length = h) (h2 : ∀ l ∈ ls, l.length = w) (h1' : ls'.length = h) (h2' : ∀ l ∈ ls', l.length = w)
    (e : ∀ y < h, ∀ x < w, charAt ls y x = charAt ls' y x) : ls = ls' := by
  apply List.ext_getElem (by rw [h1, h1'])
  intro y hy hy'
  have a := h2 _ (List.getElem_mem hy)
  have a' := h2' _ (List.getElem_mem hy')
  apply List.ext_getElem (by rw [a, a'])
  intro x hx hx'
  have := e y (h1 ▸ hy) x (a ▸ hx)
  simp only [charAt, List.getElem?_eq_getElem hy, List.getElem?_eq_getElem hy', Option.bind_some, List.getElem?_eq_getElem hx, List.getElem?_eq_getElem hx', Option.some.injEq] at this
  exact this

/-- The picture is determined by the queens. -/
theorem ChessPicture.unique {n : Nat} {q : Nat → Nat → Prop} {ls ls' : List (List Char)} (p : ChessPicture n q ls) (p' : ChessPicture n q ls') : ls = ls' := by
  refine lines_ext p.height p.width p'.height p'.width (fun y hy x hx => ?_)
  by_cases hf : ∃ r < n, ∃ c < n, y = 2 * r + 1 ∧ x = 4 * c + 2
  · obtain ⟨r, hr, c, hc, rfl, rfl⟩ := hf
    by_cases hq : q r c
    · rw [(p.field r hr c hc).1 hq, (p'.field r hr c hc).1 hq]
    · rw [(p.field r hr c hc).2 hq, (p'.field r hr c hc).2 hq]
  · rw [p.frame y (by omega) x (by omega) hf, p'.frame y (by omega) x (by omega) hf]

theorem join_length (s : Char) (cells : List (List Char)) (h3 : ∀ c ∈ cells, c.length = 3) : (joinChars [s] cells).length = 4 * cells.length - 1 := by
  match cells with
  | [] => rfl
  | [c] => simp [joinChars, h3 c]
  | c :: d :: cs =>
    have ih := join_length s (d :: cs) (fun x hx => h3 x (List.mem_cons_of_mem _ hx))
    have e : joinChars [s] (c :: d :: cs) = c ++ [s] ++ joinChars [s] (d :: cs) := rfl
    rw [e]
    simp only [List.length_append, List.length_cons, List.length_nil, ih, h3 c (by simp)]
    omega

theorem join_get (s : Char) (cells : List (List Char)) (h3 : ∀ c ∈ cells, c.length = 3) (i j : Nat) (hj : j < 4) :
    (joinChars [s] cells)[4 * i + j]? = if j = 3 then (if i + 1 < cells.length then some s else none) else cells[i]?.bind (fun c => c[j]?) := by
  match cells with
  | [] => simp [joinChars]
  | [c] =>
    have hc := h3 c (by simp)
    simp only [joinChars]
    cases i with
    | zero =>
      by_cases h : j = 3
      · subst h; simp [hc]
      · simp [h]
    | succ i =>
      have : c[4 * (i + 1) + j]? = none := by rw [List.getElem?_eq_none_iff]; omega
      rw [this]; simp
  | c :: d :: cs =>
    have hc := h3 c (by simp)
    have ih := fun i => join_get s (d :: cs) (fun x hx => h3 x (List.mem_cons_of_mem _ hx)) i j hj
    have e : joinChars [s] (c :: d :: cs) = c ++ [s] ++ joinChars [s] (d :: cs) := rfl
    rw [e]
    cases i with
    | zero =>
      rw [List.getElem?_append_left (by simp; omega)]
      by_cases h : j = 3
      · subst h
        rw [List.getElem?_append_right (by omega)]
        simp [hc]
      · rw [List.getElem?_append_left (by omega)]
        simp [h]
    | succ i =>
      rw [List.getElem?_append_right (by simp; omega)]
      have : 4 * (i + 1) + j - (c ++ [s]).length = 4 * i + j := by simp; omega
      rw [this, ih i]
      simp

theorem queensLoop_length (n : Nat) (B : List (List Int)) (h : List Char) : (queensLoop n B h).length = 2 * B.length := by
  induction B generalizing h with
  | nil => rfl
  | cons row B ih => simp only [queensLoop, List.length_cons, ih]; omega

theorem queensLoop_odd (n : Nat) (B : List (List Int)) (h : List Char) (r : Nat) : (queensLoop n B h)[2 * r + 1]? = B[r]?.map queensRowText := by
  induction B generalizing h r with
  | nil => simp [queensLoop]
  | cons row B ih =>
    cases r with
    | zero => rfl
    | succ r =>
      have : 2 * (r + 1) + 1 = (2 * r + 1) + 1 + 1 := by omega
      rw [this]
      simp only [queensLoop, List.getElem?_cons_succ]
      exact ih _ r

theorem queensLoop_even (n : Nat) (B : List (List Int)) (h : List Char) (r : Nat) :
    (queensLoop n B h)[2 * r]? = if r < B.length then some (if r = 0 then h else queensRule n '├' '┼' '┤') else none := by
  induction B generalizing h r with
  | nil => simp [queensLoop]
  | cons row B ih =>
    cases r with
    | zero => simp [queensLoop]
    | succ r =>
      have : 2 * (r + 1) = 2 * r + 1 + 1 := by omega
      rw [this]
      simp only [queensLoop, List.getElem?_cons_succ, ih, List.length_cons]
      by_cases h : r < B.length
      · by_cases h0 : r = 0 <;> simp [h, h0]
      · simp [h]

theorem frame_length (l r s : Char) {cells : List (List Char)} (h0 : cells ≠ []) (h3 : ∀ c ∈ cells, c.length = 3) :
    (l :: joinChars [s] cells ++ [r]).length = 4 * cells.length + 1 := by
  have := List.length_pos_iff.2 h0
  simp only [List.length_append, List.length_cons, List.length_nil, join_length s cells h3]
  omega

/-- In a line with cells of three characters. -/
theorem frame_get (l r s : Char) {cells : List (List Char)} (h0 : cells ≠ []) (h3 : ∀ c ∈ cells, c.length = 3) {x : Nat} (hx : x ≤ 4 * cells.length) :
    (l :: joinChars [s] cells ++ [r])[x]? = if x = 0 then some l else if x = 4 * cells.length then some r else if x % 4 = 0 then some s else
      cells[x / 4]?.bind (fun c => c[x % 4 - 1]?) := by
  have hpos := List.length_pos_iff.2 h0
  have hlen := join_length s cells h3
  cases x with
  | zero => rfl
  | succ x =>
    rw [List.cons_append, List.getElem?_cons_succ, if_neg (by omega)]
    by_cases hl : x + 1 = 4 * cells.length
    · rw [if_pos hl, List.getElem?_append_right (by omega), show x - (joinChars [s] cells).length = 0 by omega]
      rfl
    · have e : x = 4 * (x / 4) + x % 4 := by omega
      rw [if_neg hl, List.getElem?_append_left (by omega)]
      by_cases h4 : (x + 1) % 4 = 0
      · rw [if_pos h4, e, join_get s cells h3 _ _ (by omega), if_pos (by omega), if_pos (by omega)]
      · rw [if_neg h4, e, join_get s cells h3 _ _ (by omega), if_neg (by omega)]
        rw [← e, show (x + 1) / 4 = x / 4 by omega, show (x + 1) % 4 - 1 = x % 4 by omega]

/-- C55, chessboards: a board that `QueensSolver` produces (C36) is drawn with a queen exactly on its fields. The size of the board is that
of the frame. -/
theorem C55_queens {n : Nat} (hn : 0 < n) {B : List (List Int)} (h : QueensBoard n B) : ChessPicture n (Queen B) (queensPicture n B) := by
  have hrule : ∀ l s r, (queensRule n l s r).length = 4 * n + 1 := by
    intro l s r
    have := frame_length l r s (cells := List.replicate n ['─', '─', '─']) (by simp; omega) (by simp)
    rwa [List.length_replicate] at this
  let cellsOf : List Int → List (List Char) := fun row => row.map (fun q => if truthy q then [' ', '♛', ' '] else [' ', ' ', ' '])
  have hc3 : ∀ row, ∀ c ∈ cellsOf row, c.length = 3 := by
    intro row c hc
    obtain ⟨q, _, rfl⟩ := List.mem_map.1 hc
    split <;> rfl
  have hc0 : ∀ row ∈ B, cellsOf row ≠ [] := by
    intro row hrow e
    have := h.cols row hrow
    have := congrArg List.length e
    simp [cellsOf] at this; subst this; simp at *; omega
  have hrow : ∀ row ∈ B, (queensRowText row).length = 4 * n + 1 := by
    intro row hr
    have := frame_length '│' '│' '│' (hc0 row hr) (hc3 row)
    simp only [cellsOf, List.length_map, h.cols row hr] at this
    exact this
  have hodd : ∀ r, (queensPicture n B)[2 * r + 1]? = B[r]?.map queensRowText := by
    intro r
    unfold queensPicture
    by_cases hr : r < n
    · rw [List.getElem?_append_left (by rw [queensLoop_length, h.rows]; omega), queensLoop_odd]
    · rw [List.getElem?_eq_none (by rw [List.length_append, queensLoop_length, h.rows]; simp; omega), List.getElem?_eq_none (by rw [h.rows]; omega)]
      rfl
  have heven : ∀ r ≤ n, (queensPicture n B)[2 * r]? =
      some (if r = 0 then queensRule n '┌' '┬' '┐' else if r = n then queensRule n '└' '┴' '┘' else queensRule n '├' '┼' '┤') := by
    intro r hr
    unfold queensPicture
    by_cases hrn : r < n
    · rw [List.getElem?_append_left (by rw [queensLoop_length, h.rows]; omega), queensLoop_even, if_pos (by rw [h.rows]; exact hrn), if_neg (show r ≠ n by omega)]
    · have e : r = n := by omega
      subst e
      rw [List.getElem?_append_right (by rw [queensLoop_length, h.rows]), queensLoop_length, h.rows, Nat.sub_self, if_neg (by omega), if_pos rfl]
      rfl
  refine ⟨?_, ?_, ?_, ?_⟩
  · unfold queensPicture
    rw [List.length_append, queensLoop_length, h.rows]; rfl
  · intro line hl
    obtain ⟨y, hy⟩ := List.mem_iff_getElem?.1 hl
    rcases Nat.even_or_odd' y with ⟨k, rfl | rfl⟩
    · have hk : k ≤ n := by
        have := (List.getElem?_eq_some_iff.1 hy).1
        simp only [queensPicture, List.length_append, queensLoop_length, h.rows, List.length_cons, List.length_nil] at this
        omega
      rw [heven k hk] at hy
      cases hy
      split
      · exact hrule _ _ _
      · split <;> exact hrule _ _ _
    · rw [hodd] at hy
      cases hk : B[k]? with
      | none => rw [hk] at hy; cases hy
      | some row =>
        rw [hk] at hy
        cases hy
        exact hrow row (List.mem_of_getElem? hk)
  · intro r hr c hc
    have hr' : r < B.length := by rw [h.rows]; exact hr
    have hk : B[r]? = some B[r] := List.getElem?_eq_getElem hr'
    have hmem : B[r] ∈ B := List.getElem_mem hr'
    have hc' : c < B[r].length := by rw [h.cols _ hmem]; exact hc
    have key : charAt (queensPicture n B) (2 * r + 1) (4 * c + 2) = some (if truthy B[r][c] then '♛' else ' ') := by
      unfold charAt
      rw [hodd, hk]
      simp only [Option.map_some, Option.bind_some, queensRowText]
      have e : 4 * c + 2 = (4 * c + 1) + 1 := rfl
      rw [e, List.cons_append, List.getElem?_cons_succ]
      rw [List.getElem?_append_left (by rw [join_length _ _ (hc3 B[r])]; simp [cellsOf]; omega), join_get _ _ (hc3 B[r]) c 1 (by omega)]
      simp only [cellsOf, List.getElem?_map, List.getElem?_eq_getElem hc']
      by_cases ht : truthy B[r][c] = true <;> simp [ht]
    have hq : Queen B r c ↔ B[r][c] = 1 := by
      unfold Queen
      constructor
      · rintro ⟨row, h1, h2⟩
        rw [hk] at h1; cases h1
        rw [List.getElem?_eq_getElem hc'] at h2; exact Option.some.inj h2
      · intro h1
        exact ⟨_, hk, by rw [List.getElem?_eq_getElem hc', h1]⟩
    have h01 := h.cells _ hmem _ (List.getElem_mem hc')
    rw [hq, key]
    constructor
    · intro h1; rw [h1]; rfl
    · intro h1; rw [h01.resolve_right h1]; rfl
  · intro y hy x hx hf
    unfold charAt
    rcases Nat.even_or_odd' y with ⟨k, rfl | rfl⟩
    · have key : ∀ l s r, (queensRule n l s r)[x]? = some (if x = 0 then l else if x = 4 * n then r else if x % 4 = 0 then s else '─') := by
        intro l s r
        have := frame_get l r s (cells := List.replicate n ['─', '─', '─']) (by simp; omega) (by simp) (x := x) (by simpa using hx)
        rw [List.length_replicate] at this
        unfold queensRule
        rw [this]
        split_ifs with a1 a2 a3
        · rfl
        · rfl
        · rfl
        · rw [List.getElem?_replicate, if_pos (by omega)]
          have h3 : x % 4 = 1 ∨ x % 4 = 2 ∨ x % 4 = 3 := by omega
          rcases h3 with h3 | h3 | h3 <;> rw [h3] <;> rfl
      have e0 : (2 * k) % 2 = 0 := by omega
      rw [heven k (by omega), Option.bind_some]
      unfold frameChar
      by_cases x0 : x % 4 = 0
      · rw [if_pos (c := 2 * k % 2 = 0 ∧ x % 4 = 0) (And.intro e0 x0)]
        by_cases k0 : k = 0
        · subst k0
          rw [if_pos rfl, key, if_pos (c := x % 4 = 0) x0, if_pos (c := 2 * 0 = 0) rfl]
        · rw [if_neg k0, if_neg (c := 2 * k = 0) (by omega)]
          by_cases kn : k = n
          · subst kn
            rw [if_pos rfl, key, if_pos (c := x % 4 = 0) x0, if_pos (c := 2 * k = 2 * k) rfl]
          · rw [if_neg kn, key, if_pos (c := x % 4 = 0) x0, if_neg (c := 2 * k = 2 * n) (by omega)]
      · rw [if_neg (c := 2 * k % 2 = 0 ∧ x % 4 = 0) (fun h => x0 h.2), if_pos (c := 2 * k % 2 = 0) e0]
        have x1 : x ≠ 0 := by omega
        have x2 : x ≠ 4 * n := by omega
        have key' : ∀ l s r, (queensRule n l s r)[x]? = some '─' := fun l s r => by rw [key, if_neg x1, if_neg x2, if_neg x0]
        split_ifs <;> exact key' _ _ _
    · have hk : k < B.length := by rw [h.rows]; omega
      have hmem : B[k] ∈ B := List.getElem_mem hk
      have hlen : (cellsOf B[k]).length = n := by simp [cellsOf, h.cols _ hmem]
      have e0 : ¬ (2 * k + 1) % 2 = 0 := by omega
      have := frame_get '│' '│' '│' (hc0 B[k] hmem) (hc3 B[k]) (x := x) (by rw [hlen]; exact hx)
      rw [hlen] at this
      rw [hodd, List.getElem?_eq_getElem hk, Option.map_some, Option.bind_some]
      unfold frameChar
      rw [if_neg (c := (2 * k + 1) % 2 = 0 ∧ x % 4 = 0) (fun h => e0 h.1), if_neg e0]
      refine Eq.trans this ?_
      by_cases x0 : x % 4 = 0
      · rw [if_pos x0, if_pos x0]
        split_ifs <;> rfl
      · have hx4 : x / 4 < (cellsOf B[k]).length := by rw [hlen]; omega
        rw [if_neg (by omega), if_neg (by omega), if_neg x0, if_neg x0, List.getElem?_eq_getElem hx4, Option.bind_some]
        obtain ⟨q, _, hq⟩ := List.mem_map.1 (List.getElem_mem hx4)
        rw [← hq]
        have h2 : x % 4 ≠ 2 := fun h2 => hf ⟨k, by omega, x / 4, by omega, rfl, by omega⟩
        have h3 : x % 4 = 1 ∨ x % 4 = 3 := by omega
        rcases h3 with h3 | h3 <;> rw [h3] <;> split_ifs <;> rfl

-- the picture of a board of size 4
example : (queensPicture 4 [[0, 1, 0, 0], [0, 0, 0, 1], [1, 0, 0, 0], [0, 0, 1, 0]]).map String.ofList = [
    "┌───┬───┬───┬───┐",
    "│   │ ♛ │   │   │",
    "├───┼───┼───┼───┤",
    "│   │   │   │ ♛ │",
    "├───┼───┼───┼───┤",
    "│ ♛ │   │   │   │",
    "├───┼───┼───┼───┤",
    "│   │   │ ♛ │   │",
    "└───┴───┴───┴───┘"] := by decide +kernel

/-- Different boards have different pictures. -/
theorem C55_queens_readable {n : Nat} (hn : 0 < n) {B B' : List (List Int)} (h : QueensBoard n B) (h' : QueensBoard n B')
    (e : queensPicture n B = queensPicture n B') : B = B' := by
  have p := C55_queens hn h
  have p' := C55_queens hn h'
  rw [← e] at p'
  have hq : ∀ r < n, ∀ c < n, (Queen B r c ↔ Queen B' r c) := by
    intro r hr c hc
    have f := p.field r hr c hc
    have f' := p'.field r hr c hc
    constructor
    · intro hq
      by_contra hq'
      have := (f.1 hq).symm.trans (f'.2 hq')
      simp at this
    · intro hq'
      by_contra hq
      have := (f.2 hq).symm.trans (f'.1 hq')
      simp at this
  apply List.ext_getElem (by rw [h.rows, h'.rows])
  intro r hr hr'
  have m := List.getElem_mem hr
  have m' := List.getElem_mem hr'
  apply List.ext_getElem (by rw [h.cols _ m, h'.cols _ m'])
  intro c hc hc'
  have key : ∀ {B : List (List Int)} (hB : QueensBoard n B) {r c : Nat} (hr : r < B.length) (hc : c < B[r].length), Queen B r c ↔ B[r][c] = 1 := by
    intro B hB r c hr hc
    constructor
    · rintro ⟨row, h1, h2⟩
      rw [List.getElem?_eq_getElem hr] at h1; cases h1
      rw [List.getElem?_eq_getElem hc] at h2; exact Option.some.inj h2
    · intro h1
      exact ⟨_, List.getElem?_eq_getElem hr, by rw [List.getElem?_eq_getElem hc, h1]⟩
  have hk := hq r (h.rows ▸ hr) c (by rw [← h.cols _ m]; exact hc)
  rw [key h hr hc, key h' hr' hc'] at hk
  have a := h.cells _ m _ (List.getElem_mem hc)
  have a' := h'.cells _ m' _ (List.getElem_mem hc')
  omega

/-! ## Sudoku -/

/-- The mark of an entry: its digit, or a dot. -/
def mark : Option Int → Char
  | none => '.'
  | some v => if v = 0 then '.' else Char.ofNat (48 + v.toNat)

/-- Specification: the picture of a 9×9 grid; the mark of the entry `(r, c)` is at line `1 + r + r/3`, column `2 + 3c + c/3`; the rest is a frame around the blocks. -/
structure GridPicture (g : Nat → Nat → Option Int) (ls : List (List Char)) : Prop where
  height : ls.length = 13
  width : ∀ l ∈ ls, l.length = 31
  field : ∀ r < 9, ∀ c < 9, charAt ls (1 + r + r / 3) (2 + 3 * c + c / 3) = some (mark (g r c))
  frame : ∀ y ≤ 12, ∀ x ≤ 30, (¬ ∃ r < 9, ∃ c < 9, y = 1 + r + r / 3 ∧ x = 2 + 3 * c + c / 3) → charAt ls y x = some (frameChar 4 10 12 30 y x)

/-- The picture is determined by the entries. -/
theorem GridPicture.unique {g : Nat → Nat → Option Int} {ls ls' : List (List Char)} (p : GridPicture g ls) (p' : GridPicture g ls') : ls = ls' := by
  refine lines_ext p.height p.width p'.height p'.width (fun y hy x hx => ?_)
  by_cases hf : ∃ r < 9, ∃ c < 9, y = 1 + r + r / 3 ∧ x = 2 + 3 * c + c / 3
  · obtain ⟨r, hr, c, hc, rfl, rfl⟩ := hf
    rw [p.field r hr c hc, p'.field r hr c hc]
  · rw [p.frame y (by omega) x (by omega) hf, p'.frame y (by omega) x (by omega) hf]

theorem conv_mark {v : Option Int} (h : ∀ u, v = some u → 0 ≤ u ∧ u ≤ 9) : sudokuConv v = [mark v] := by
  cases v with
  | none => rfl
  | some u =>
    have hu := h u rfl
    unfold sudokuConv mark
    by_cases h0 : u = 0
    · subst h0; rfl
    · have : truthy u = true := by simp [truthy, h0]
      simp only [this, if_true, if_neg h0]
      rw [intStr_digit hu]
      congr 1

/-- A line with the marks `m 0`, …, `m 8`. -/
def rowLine (m : Nat → Char) : List Char :=
  ['│', ' ', m 0, ' ', ' ', m 1, ' ', ' ', m 2, ' ', '│', ' ', m 3, ' ', ' ', m 4, ' ', ' ', m 5, ' ', '│', ' ', m 6, ' ', ' ', m 7, ' ', ' ', m 8, ' ', '│']

theorem rowText_of (m : Nat → Char) (row : List (Option Int)) (h : row.length = 9) (hm : ∀ c < 9, ∀ v, row[c]? = some v → sudokuConv v = [m c]) :
    sudokuRowText row = rowLine m := by
  match row, h with
  | [a0, a1, a2, a3, a4, a5, a6, a7, a8], _ =>
    simp [sudokuRowText, rowLine, pyInsert, hm 0 (by omega) a0 rfl, hm 1 (by omega) a1 rfl, hm 2 (by omega) a2 rfl, hm 3 (by omega) a3 rfl,
      hm 4 (by omega) a4 rfl, hm 5 (by omega) a5 rfl, hm 6 (by omega) a6 rfl, hm 7 (by omega) a7 rfl, hm 8 (by omega) a8 rfl]

theorem rowLine_field (m : Nat → Char) {c : Nat} (hc : c < 9) : (rowLine m)[2 + 3 * c + c / 3]? = some (m c) := by
  interval_cases c <;> rfl

/-- The whole board, given its lines. -/
def gridLines (m : Nat → Nat → Char) : List (List Char) :=
  [sudokuUline, rowLine (m 0), rowLine (m 1), rowLine (m 2), sudokuMline, rowLine (m 3), rowLine (m 4), rowLine (m 5), sudokuMline,
   rowLine (m 6), rowLine (m 7), rowLine (m 8), sudokuBline]

theorem gridLines_row (m : Nat → Nat → Char) {r : Nat} (hr : r < 9) : (gridLines m)[1 + r + r / 3]? = some (rowLine (m r)) := by
  interval_cases r <;> rfl

theorem rowLine_at (m : Nat → Char) {x : Nat} (hx : x ≤ 30) :
    (rowLine m)[x]? = some (if x % 10 % 3 = 2 then m (3 * (x / 10) + x % 10 / 3) else if x % 10 = 0 then '│' else ' ') := by
  interval_cases x <;> rfl

theorem rules_at : ∀ x ∈ List.range 31, sudokuUline[x]? = some (frameChar 4 10 12 30 0 x) ∧ sudokuMline[x]? = some (frameChar 4 10 12 30 4 x) ∧
    sudokuMline[x]? = some (frameChar 4 10 12 30 8 x) ∧ sudokuBline[x]? = some (frameChar 4 10 12 30 12 x) := by decide +kernel

/-- The lines character by character. -/
theorem gridLines_at (m : Nat → Nat → Char) {y x : Nat} (hy : y ≤ 12) (hx : x ≤ 30) : charAt (gridLines m) y x =
    some (if y % 4 ≠ 0 ∧ x % 10 % 3 = 2 then m (y - 1 - y / 4) (3 * (x / 10) + x % 10 / 3) else frameChar 4 10 12 30 y x) := by
  have h1 : y = 0 ∨ y = 4 ∨ y = 8 ∨ y = 12 ∨ ∃ r < 9, y = 1 + r + r / 3 := by interval_cases y <;> decide
  have hr := rules_at x (List.mem_range.2 (by omega))
  unfold charAt
  rcases h1 with rfl | rfl | rfl | rfl | ⟨r, hr9, rfl⟩
  · rw [if_neg (by omega)]; exact hr.1
  · rw [if_neg (by omega)]; exact hr.2.1
  · rw [if_neg (by omega)]; exact hr.2.2.1
  · rw [if_neg (by omega)]; exact hr.2.2.2
  · have e1 : 1 + r + r / 3 - 1 - (1 + r + r / 3) / 4 = r := by omega
    have e2 : ¬ (1 + r + r / 3) % 4 = 0 := by omega
    rw [gridLines_row m hr9, Option.bind_some, rowLine_at _ hx, e1]
    unfold frameChar
    rw [if_neg (c := (1 + r + r / 3) % 4 = 0 ∧ x % 10 = 0) (fun h => e2 h.1), if_neg e2]
    by_cases h2 : x % 10 % 3 = 2
    · rw [if_pos h2, if_pos ⟨e2, h2⟩]
    · rw [if_neg h2, if_neg (c := (1 + r + r / 3) % 4 ≠ 0 ∧ x % 10 % 3 = 2) (fun h => h2 h.2)]

theorem board_eq {G : List (List (Option Int))} (h : Schema9 G) : sudokuBoard G = .ok (gridLines (fun r c => mark ((schemaAt G (r, c)).getD none))) := by
  have hrow : ∀ r (row : List (Option Int)), G[r]? = some row → sudokuRowText row = rowLine (fun c => mark ((schemaAt G (r, c)).getD none)) := by
    intro r row hr
    have hmem := List.mem_of_getElem? hr
    refine rowText_of _ row (h.cols row hmem) ?_
    intro c hc v hv
    have : schemaAt G (r, c) = some v := by simp [schemaAt, hr, hv]
    rw [this]
    exact conv_mark (fun u hu => by subst hu; exact h.entries row hmem u (List.mem_of_getElem? hv))
  match G, h.rows, hrow with
  | [a0, a1, a2, a3, a4, a5, a6, a7, a8], _, hrow =>
    have e : sudokuBoard [a0, a1, a2, a3, a4, a5, a6, a7, a8] = .ok [sudokuUline, sudokuRowText a0, sudokuRowText a1, sudokuRowText a2,
      sudokuMline, sudokuRowText a3, sudokuRowText a4, sudokuRowText a5, sudokuMline, sudokuRowText a6, sudokuRowText a7, sudokuRowText a8,
      sudokuBline] := rfl
    rw [e, hrow 0 a0 rfl, hrow 1 a1 rfl, hrow 2 a2 rfl, hrow 3 a3 rfl, hrow 4 a4 rfl, hrow 5 a5 rfl, hrow 6 a6 rfl, hrow 7 a7 rfl, hrow 8 a8 rfl]
    rfl

/-- C55, Sudoku: any schema or solution, given as nine rows of nine entries out of `None` and 0 … 9, is drawn with its digits in their places. -/
theorem C55_sudoku {G : List (List (Option Int))} (h : Schema9 G) :
    ∃ ls, sudokuBoard G = .ok ls ∧ GridPicture (fun r c => (schemaAt G (r, c)).getD none) ls := by
  refine ⟨_, board_eq h, rfl, ?_, ?_, ?_⟩
  · intro l hl
    have hd : ∀ l ∈ [sudokuUline, sudokuMline, sudokuBline], l.length = 31 := by decide
    have hrow : ∀ m, (rowLine m).length = 31 := fun _ => rfl
    simp only [gridLines, List.mem_cons, List.not_mem_nil, or_false] at hl
    rcases hl with rfl | rfl | rfl | rfl | rfl | rfl | rfl | rfl | rfl | rfl | rfl | rfl | rfl <;> first | exact hrow _ | exact hd _ (by simp)
  · intro r hr c hc
    have e1 : 1 + r + r / 3 - 1 - (1 + r + r / 3) / 4 = r := by omega
    have e2 : 3 * ((2 + 3 * c + c / 3) / 10) + (2 + 3 * c + c / 3) % 10 / 3 = c := by interval_cases c <;> rfl
    have e3 : (2 + 3 * c + c / 3) % 10 % 3 = 2 := by interval_cases c <;> rfl
    have e4 : (1 + r + r / 3) % 4 ≠ 0 := by omega
    rw [gridLines_at _ (by omega) (by omega), if_pos ⟨e4, e3⟩, e1, e2]
  · intro y hy x hx hf
    rw [gridLines_at _ hy hx, if_neg]
    rintro ⟨h1, h2⟩
    exact hf ⟨y - 1 - y / 4, by omega, 3 * (x / 10) + x % 10 / 3, by omega, by omega, by omega⟩

theorem mark_inj {u v : Option Int} (hu : ∀ k, u = some k → 0 ≤ k ∧ k ≤ 9) (hv : ∀ k, v = some k → 0 ≤ k ∧ k ≤ 9) (h : mark u = mark v)
    (nu : u ≠ some 0) (nv : v ≠ some 0) : u = v := by
  have dot : ∀ k : Int, 1 ≤ k → k ≤ 9 → ∀ l : Int, 1 ≤ l → l ≤ 9 → Char.ofNat (48 + k.toNat) ≠ '.' ∧ (Char.ofNat (48 + k.toNat) = Char.ofNat (48 + l.toNat) → k = l) := by
    intro k h1 h2 l h3 h4
    interval_cases k <;> interval_cases l <;> decide
  cases u with
  | none =>
    cases v with
    | none => rfl
    | some l =>
      have hl := hv l rfl
      have : l ≠ 0 := fun e => nv (by rw [e])
      simp only [mark, if_neg this] at h
      exact absurd h.symm (dot l (by omega) hl.2 l (by omega) hl.2).1
  | some k =>
    have hk := hu k rfl
    have k0 : k ≠ 0 := fun e => nu (by rw [e])
    cases v with
    | none =>
      simp only [mark, if_neg k0] at h
      exact absurd h (dot k (by omega) hk.2 k (by omega) hk.2).1
    | some l =>
      have hl := hv l rfl
      have l0 : l ≠ 0 := fun e => nv (by rw [e])
      simp only [mark, if_neg k0, if_neg l0] at h
      rw [(dot k (by omega) hk.2 l (by omega) hl.2).2 h]

theorem completion_schema {schema B : List (List (Option Int))} (h : Completion schema B) : Schema9 B ∧ ∀ row ∈ B, some 0 ∉ row := by
  obtain ⟨g, rfl, _, hr, _, _⟩ := h
  have hv : ∀ r < 9, ∀ c < 9, 1 ≤ g r c ∧ g r c ≤ 9 := fun r hr' c hc => ((oneToNine_iff _).1 (hr r hr')).1 c hc
  refine ⟨⟨by simp, ?_, ?_⟩, ?_⟩
  · intro row hrow
    obtain ⟨r, _, rfl⟩ := List.mem_map.1 hrow
    simp
  · intro row hrow v hv'
    obtain ⟨r, hr', rfl⟩ := List.mem_map.1 hrow
    obtain ⟨c, hc, e⟩ := List.mem_map.1 hv'
    have := hv r (List.mem_range.1 hr') c (List.mem_range.1 hc)
    cases e
    omega
  · intro row hrow hv'
    obtain ⟨r, hr', rfl⟩ := List.mem_map.1 hrow
    obtain ⟨c, hc, e⟩ := List.mem_map.1 hv'
    have := hv r (List.mem_range.1 hr') c (List.mem_range.1 hc)
    simp only [Option.some.injEq] at e
    omega

/-- The solutions that `SudokuSolver` produces (C35) can be read off their pictures. -/
theorem C55_sudoku_readable {schema B B' : List (List (Option Int))} (h : Completion schema B) (h' : Completion schema B')
    (e : sudokuBoard B = sudokuBoard B') : B = B' := by
  obtain ⟨s, z⟩ := completion_schema h
  obtain ⟨s', z'⟩ := completion_schema h'
  obtain ⟨ls, b1, b2⟩ := C55_sudoku s
  obtain ⟨ls', b1', b2'⟩ := C55_sudoku s'
  rw [e, b1'] at b1
  cases b1
  apply List.ext_getElem (by rw [s.rows, s'.rows])
  intro r hr hr'
  have m := List.getElem_mem hr
  have m' := List.getElem_mem hr'
  apply List.ext_getElem (by rw [s.cols _ m, s'.cols _ m'])
  intro c hc hc'
  have f := b2.field r (s.rows ▸ hr) c (by rw [← s.cols _ m]; exact hc)
  have f' := b2'.field r (s.rows ▸ hr) c (by rw [← s.cols _ m]; exact hc)
  have a : schemaAt B (r, c) = some B[r][c] := by simp [schemaAt, hr, hc]
  have a' : schemaAt B' (r, c) = some B'[r][c] := by simp [schemaAt, hr', hc']
  rw [f', a, a'] at f
  simp only [Option.getD_some, Option.some.injEq] at f
  exact (mark_inj (fun k hk => s'.entries _ m' k (hk ▸ List.getElem_mem hc')) (fun k hk => s.entries _ m k (hk ▸ List.getElem_mem hc)) f
    (fun e => z' _ m' (e ▸ List.getElem_mem hc')) (fun e => z _ m (e ▸ List.getElem_mem hc))).symm

/-- The demo prints the schema before the solver checks it: with fewer than nine rows it ends in an `IndexError`, not in the message about the number of
rows; rows after the ninth are not shown. -/
theorem C55_short {G : List (List (Option Int))} (h : G.length < 9) : sudokuBoard G = .error .indexError := by
  match G, h with
  | [], _ => rfl
  | [_], _ => rfl
  | [_, _], _ => rfl
  | [_, _, _], _ => rfl
  | [_, _, _, _], _ => rfl
  | [_, _, _, _, _], _ => rfl
  | [_, _, _, _, _, _], _ => rfl
  | [_, _, _, _, _, _, _], _ => rfl
  | [_, _, _, _, _, _, _, _], _ => rfl
  | _ :: _ :: _ :: _ :: _ :: _ :: _ :: _ :: _ :: _, h => simp at h; omega

example : (sudokuBoard (grid9 none (some 8))).map (List.map String.ofList) = .ok [
    "┌─────────┬─────────┬─────────┐",
    "│ .  2  3 │ 4  5  6 │ 7  8  9 │",
    "│ 4  5  6 │ 7  8  9 │ 1  2  3 │",
    "│ 7  8  9 │ 1  2  3 │ 4  5  6 │",
    "├─────────┼─────────┼─────────┤",
    "│ 2  3  4 │ 5  6  7 │ 8  9  1 │",
    "│ 5  6  7 │ 8  9  1 │ 2  3  4 │",
    "│ 8  9  1 │ 2  3  4 │ 5  6  7 │",
    "├─────────┼─────────┼─────────┤",
    "│ 3  4  5 │ 6  7  8 │ 9  1  2 │",
    "│ 6  7  8 │ 9  1  2 │ 3  4  5 │",
    "│ 9  1  2 │ 3  4  5 │ 6  7  8 │",
    "└─────────┴─────────┴─────────┘"] := by decide +kernel

/-! ## Knapsack, Einstein's riddle -/

/-- C55, knapsack: item `i` is shown at column `2i`. -/
theorem C55_knapsack (l : List Int) (i : Nat) (hi : i < l.length) :
    (knapsackText l)[2 * i]? = some (if l[i] = 0 then '_' else 'X') ∧ (knapsackText l).length = 2 * l.length - 1 := by
  unfold knapsackText
  induction l generalizing i with
  | nil => simp at hi
  | cons v l ih =>
    have h1 : ∀ w : Int, (if truthy w then ['X'] else ['_']) = [if w = 0 then '_' else 'X'] := by
      intro w
      by_cases hw : w = 0 <;> simp [truthy, hw]
    match l, ih with
    | [], _ =>
      simp only [List.length_singleton] at hi
      obtain rfl : i = 0 := by omega
      simp [joinChars, h1]
    | w :: l, ih =>
      have e : joinChars [' '] ((v :: w :: l).map (fun item => if truthy item then ['X'] else ['_'])) =
        (if v = 0 then '_' else 'X') :: ' ' :: joinChars [' '] ((w :: l).map (fun item => if truthy item then ['X'] else ['_'])) := by
        simp only [List.map_cons, joinChars, h1]
        rfl
      rw [e]
      cases i with
      | zero =>
        have := (ih 0 (by simp)).2
        simp only [List.length_cons] at this ⊢
        exact ⟨by simp, by omega⟩
      | succ i =>
        have := ih i (by simpa using hi)
        have e2 : 2 * (i + 1) = 2 * i + 1 + 1 := by omega
        rw [e2]
        simp only [List.getElem?_cons_succ, List.getElem_cons_succ, List.length_cons] at this ⊢
        exact ⟨this.1, by omega⟩

example : String.ofList (knapsackText [1, 0, 0, 1]) = "X _ _ X" := by decide

/-- C55, riddle: every solution of the riddle is printed as five sentences, one per house; exactly one has the mark `[*]`, and it is about the owner of the
zebra. -/
theorem C55_riddle {z : Street} (hz : Riddle z) : (einPrint z).map (List.map String.ofList) = .ok [
    "    The Norwegian, who lives in the first yellow house, drinks water, smokes Dunhill and has cats.",
    "    The Dane, who lives in the second blue house, drinks tea, smokes Blend and has a horse.",
    "    The English, who lives in the third red house, drinks milk, smokes Pall Mall and has birds.",
    "[*] The German, who lives in the fourth green house, drinks coffee, smokes Prince and has a zebra.",
    "    The Swede, who lives in the fifth white house, drinks beer, smokes Blue Master and has a dog."] := by
  rw [riddle_unique hz]
  decide +kernel

end Satisfy.Props
