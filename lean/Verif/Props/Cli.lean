import Verif.Cli
import Mathlib.Tactic.SplitIfs
import Mathlib.Data.List.Forall2
/-!
# The options on the command line: C62
-/

namespace Satisfy.Props
open Satisfy

/-- Specification: decimal digits, with single underscores between them, and their value. -/
inductive Decimal : List Char → Nat → Prop
  | digit {c : Char} : '0' ≤ c → c ≤ '9' → Decimal [c] (c.toNat - 48)
  | more {s : List Char} {n : Nat} {c : Char} : Decimal s n → '0' ≤ c → c ≤ '9' → Decimal (s ++ [c]) (10 * n + (c.toNat - 48))
  | grouped {s : List Char} {n : Nat} {c : Char} : Decimal s n → '0' ≤ c → c ≤ '9' → Decimal (s ++ ['_', c]) (10 * n + (c.toNat - 48))

/-- Specification: space, tab, line feed, …: the characters `str.isspace` accepts. -/
def Space (c : Char) : Prop := c ∈ [' ', '\t', '\n', '\r', '\x0b', '\x0c', '\x1c', '\x1d', '\x1e', '\x1f']

/-- Specification: an integer in decimal notation, with an optional sign, blanks around it. -/
def IntegerText (s : List Char) (i : Int) : Prop :=
  ∃ l m r n, s = l ++ m ++ r ∧ (∀ c ∈ l, Space c) ∧ (∀ c ∈ r, Space c) ∧
    (Decimal m n ∧ i = n ∨ (∃ m', m = '+' :: m' ∧ Decimal m' n) ∧ i = n ∨ (∃ m', m = '-' :: m' ∧ Decimal m' n) ∧ i = -n)

theorem char_eq_of_toNat {c d : Char} (h : c.toNat = d.toNat) : c = d := Char.toNat_inj.1 h

theorem isBlank_iff (c : Char) : isBlank c = true ↔ Space c := by
  have key : ∀ n < 33, (decide (n = 32 ∨ (9 ≤ n ∧ n ≤ 13) ∨ (28 ≤ n ∧ n ≤ 31)) = true ↔ Space (Char.ofNat n)) := by
    unfold Space; decide
  constructor
  · intro h
    have hlt : c.toNat < 33 := by simp [isBlank] at h; omega
    have := (key c.toNat hlt).1 (by simpa [isBlank] using h)
    rwa [Char.ofNat_toNat] at this
  · intro h
    unfold Space at h
    simp only [List.mem_cons, List.not_mem_nil, or_false] at h
    rcases h with rfl | rfl | rfl | rfl | rfl | rfl | rfl | rfl | rfl | rfl <;> decide

/-- The characters of a number. -/
theorem Decimal.chars {s : List Char} {n : Nat} (h : Decimal s n) : s ≠ [] ∧ (∀ c ∈ s, ('0' ≤ c ∧ c ≤ '9') ∨ c = '_') ∧ (∀ c, s.head? = some c → '0' ≤ c ∧ c ≤ '9') ∧
    ∀ c, s.getLast? = some c → '0' ≤ c ∧ c ≤ '9' := by
  induction h with
  | @digit c h1 h2 => exact ⟨by simp, by simp [h1, h2], by simp [h1, h2], by simp [h1, h2]⟩
  | @more s n c _ h1 h2 ih =>
    obtain ⟨i1, i2, i3, _⟩ := ih
    refine ⟨by simp, ?_, ?_, by simp [h1, h2]⟩
    · intro d hd
      rcases List.mem_append.1 hd with hd | hd
      · exact i2 d hd
      · simp at hd; subst hd; exact .inl ⟨h1, h2⟩
    · intro d hd
      apply i3 d
      cases s with
      | nil => exact absurd rfl i1
      | cons => simpa using hd
  | @grouped s n c _ h1 h2 ih =>
    obtain ⟨i1, i2, i3, _⟩ := ih
    refine ⟨by simp, ?_, ?_, by simp [h1, h2]⟩
    · intro d hd
      rcases List.mem_append.1 hd with hd | hd
      · exact i2 d hd
      · simp at hd
        rcases hd with rfl | rfl
        · exact .inr rfl
        · exact .inl ⟨h1, h2⟩
    · intro d hd
      apply i3 d
      cases s with
      | nil => exact absurd rfl i1
      | cons => simpa using hd

theorem digit_step {c : Char} (h1 : '0' ≤ c) (h2 : c ≤ '9') (p : Bool) (n : Nat) (t : List Char) :
    intDigits p n (c :: t) = intDigits true (10 * n + (c.toNat - 48)) t := by
  cases p <;> simp [intDigits, h1, h2]

theorem underscore_step (n : Nat) (t : List Char) : intDigits true n ('_' :: t) = intDigits false n t := by
  have : ¬ ('0' ≤ '_' ∧ '_' ≤ '9') := by decide
  simp [intDigits, this]

/-- A number is read as its value. -/
theorem intDigits_of_decimal {m : List Char} {n : Nat} (h : Decimal m n) : ∀ t, intDigits false 0 (m ++ t) = intDigits true n t := by
  induction h with
  | @digit c h1 h2 => intro t; simp [digit_step h1 h2]
  | @more s n c _ h1 h2 ih => intro t; rw [List.append_assoc, ih]; exact digit_step h1 h2 _ _ _
  | @grouped s n c _ h1 h2 ih =>
    intro t
    rw [List.append_assoc, ih]
    show intDigits true n ('_' :: c :: t) = _
    rw [underscore_step, digit_step h1 h2]

/-- What is read is a number: `s` has been read before. -/
theorem decimal_of_intDigits : ∀ (t s : List Char) (n k : Nat), Decimal s n →
    (intDigits true n t = .ok k → Decimal (s ++ t) k) ∧ (intDigits false n t = .ok k → Decimal (s ++ '_' :: t) k)
  | [], s, n, k, h => by
    refine ⟨fun e => ?_, fun e => by simp [intDigits] at e⟩
    simp only [intDigits, Except.ok.injEq] at e
    subst e; simpa using h
  | c :: t, s, n, k, h => by
    by_cases hd : '0' ≤ c ∧ c ≤ '9'
    · constructor <;> intro e
      · rw [digit_step hd.1 hd.2] at e
        simpa using (decimal_of_intDigits t _ _ k (.more h hd.1 hd.2)).1 e
      · rw [digit_step hd.1 hd.2] at e
        simpa using (decimal_of_intDigits t _ _ k (.grouped h hd.1 hd.2)).1 e
    · constructor <;> intro e
      · by_cases hu : c = '_'
        · subst hu
          rw [underscore_step] at e
          exact (decimal_of_intDigits t s n k h).2 e
        · simp [intDigits, hd, hu] at e
      · simp [intDigits, hd] at e

theorem intDigits_iff (m : List Char) (k : Nat) : intDigits false 0 m = .ok k ↔ Decimal m k := by
  constructor
  · cases m with
    | nil => intro e; simp [intDigits] at e
    | cons c t =>
      intro e
      by_cases hd : '0' ≤ c ∧ c ≤ '9'
      · rw [digit_step hd.1 hd.2] at e
        have := (decimal_of_intDigits t [c] _ k (.digit hd.1 hd.2)).1 (by simpa using e)
        simpa using this
      · simp [intDigits, hd] at e
  · intro h
    have := intDigits_of_decimal h []
    simpa [intDigits] using this

theorem intDigits_error : ∀ (t : List Char) (p : Bool) (n : Nat) (e : Err), intDigits p n t = .error e → e = .valueError
  | [], true, n, e, h => by simp [intDigits] at h
  | [], false, n, e, h => by simpa [intDigits] using h.symm
  | c :: t, p, n, e, h => by
    cases p <;> simp only [intDigits] at h <;> split_ifs at h with h1 h2
    · exact intDigits_error t _ _ e h
    · simp at h2
    · simpa using h.symm
    · exact intDigits_error t _ _ e h
    · exact intDigits_error t _ _ e h
    · simpa using h.symm

theorem dropBlanks_split : ∀ s : List Char, ∃ l, s = l ++ dropBlanks s ∧ ∀ c ∈ l, Space c
  | [] => ⟨[], rfl, by simp⟩
  | c :: cs => by
    obtain ⟨l, h1, h2⟩ := dropBlanks_split cs
    by_cases hb : isBlank c = true
    · refine ⟨c :: l, ?_, ?_⟩
      · simp only [dropBlanks, hb, if_true, List.cons_append]; rw [← h1]
      · intro d hd
        rcases List.mem_cons.1 hd with rfl | hd
        · exact (isBlank_iff _).1 hb
        · exact h2 d hd
    · exact ⟨[], by simp [dropBlanks, hb], by simp⟩

theorem dropBlanks_append (m : List Char) (hm : ∀ c, m.head? = some c → isBlank c = false) : ∀ l : List Char, (∀ c ∈ l, Space c) → dropBlanks (l ++ m) = m
  | [], _ => by
    cases m with
    | nil => rfl
    | cons c cs => simp [dropBlanks, hm c rfl]
  | c :: l, h => by
    have hc : isBlank c = true := (isBlank_iff c).2 (h c (by simp))
    simp only [List.cons_append, dropBlanks, hc, if_true]
    exact dropBlanks_append m hm l (fun d hd => h d (by simp [hd]))

/-- `text.strip()`. -/
def stripped (text : List Char) : List Char := (dropBlanks (dropBlanks text).reverse).reverse

theorem stripped_split (s : List Char) : ∃ l r, s = l ++ stripped s ++ r ∧ (∀ c ∈ l, Space c) ∧ ∀ c ∈ r, Space c := by
  obtain ⟨l, h1, h2⟩ := dropBlanks_split s
  obtain ⟨r, h3, h4⟩ := dropBlanks_split (dropBlanks s).reverse
  refine ⟨l, r.reverse, ?_, h2, fun c hc => h4 c (by simpa using hc)⟩
  have : dropBlanks s = stripped s ++ r.reverse := by
    have := congrArg List.reverse h3
    simpa [stripped] using this
  rw [List.append_assoc, ← this]; exact h1

theorem stripped_eq (l m r : List Char) (hl : ∀ c ∈ l, Space c) (hr : ∀ c ∈ r, Space c) (hne : m ≠ [])
    (hh : ∀ c, m.head? = some c → isBlank c = false) (ht : ∀ c, m.getLast? = some c → isBlank c = false) : stripped (l ++ m ++ r) = m := by
  unfold stripped
  rw [List.append_assoc, dropBlanks_append (m ++ r) _ l hl, List.reverse_append, dropBlanks_append m.reverse _ r.reverse (by simpa using hr), List.reverse_reverse]
  · intro c hc; rw [List.head?_reverse] at hc; exact ht c hc
  · intro c hc
    cases m with
    | nil => exact absurd rfl hne
    | cons d ds => exact hh c (by simpa using hc)

theorem digit_not_blank {c : Char} (h : '0' ≤ c ∧ c ≤ '9') : isBlank c = false := by
  have h1 : 48 ≤ c.toNat := h.1
  have h2 : c.toNat ≤ 57 := h.2
  simp [isBlank]; omega

theorem signless {m : List Char} {n : Nat} (h : Decimal m n) : (∀ t, m ≠ '-' :: t) ∧ ∀ t, m ≠ '+' :: t := by
  constructor <;> rintro t rfl <;> have := h.chars.2.2.1 _ rfl <;> revert this <;> decide

/-- What `int` does with the text between the blanks. -/
theorem signed_iff (m : List Char) (i : Int) :
    (match m with
      | '-' :: ds => do return -((← intDigits false 0 ds : Nat) : Int)
      | '+' :: ds => do return ((← intDigits false 0 ds : Nat) : Int)
      | ds => do return ((← intDigits false 0 ds : Nat) : Int) : Res Int) = .ok i ↔
    ∃ n : Nat, Decimal m n ∧ i = n ∨ (∃ m', m = '+' :: m' ∧ Decimal m' n) ∧ i = n ∨ (∃ m', m = '-' :: m' ∧ Decimal m' n) ∧ i = -n := by
  split
  next ds =>
    constructor
    · intro e
      cases hd : intDigits false 0 ds with
      | error x => rw [hd] at e; cases e
      | ok n => rw [hd] at e; cases e; exact ⟨n, .inr (.inr ⟨⟨ds, rfl, (intDigits_iff ds n).1 hd⟩, rfl⟩)⟩
    · rintro ⟨n, ⟨h, _⟩ | ⟨⟨m', h, _⟩, _⟩ | ⟨⟨m', h, h'⟩, rfl⟩⟩
      · exact absurd rfl ((signless h).1 ds)
      · simp at h
      · simp only [List.cons.injEq, true_and] at h
        subst h; rw [(intDigits_iff ds n).2 h']; rfl
  next ds =>
    constructor
    · intro e
      cases hd : intDigits false 0 ds with
      | error x => rw [hd] at e; cases e
      | ok n => rw [hd] at e; cases e; exact ⟨n, .inr (.inl ⟨⟨ds, rfl, (intDigits_iff ds n).1 hd⟩, rfl⟩)⟩
    · rintro ⟨n, ⟨h, _⟩ | ⟨⟨m', h, h'⟩, rfl⟩ | ⟨⟨m', h, _⟩, _⟩⟩
      · exact absurd rfl ((signless h).2 ds)
      · simp only [List.cons.injEq, true_and] at h
        subst h; rw [(intDigits_iff ds n).2 h']; rfl
      · simp at h
  next h1 h2 =>
    constructor
    · intro e
      cases hd : intDigits false 0 m with
      | error x => rw [hd] at e; cases e
      | ok n => rw [hd] at e; cases e; exact ⟨n, .inl ⟨(intDigits_iff m n).1 hd, rfl⟩⟩
    · rintro ⟨n, ⟨h, rfl⟩ | ⟨⟨m', h, _⟩, _⟩ | ⟨⟨m', h, _⟩, _⟩⟩
      · rw [(intDigits_iff m n).2 h]; rfl
      · exact absurd h (h2 m')
      · exact absurd h (h1 m')

theorem pyInt_iff (s : List Char) (i : Int) : pyInt s = .ok i ↔ IntegerText s i := by
  have hp : pyInt s = .ok i ↔ _ := signed_iff (stripped s) i
  rw [hp]
  constructor
  · rintro ⟨n, h⟩
    obtain ⟨l, r, h1, h2, h3⟩ := stripped_split s
    exact ⟨l, stripped s, r, n, h1, h2, h3, h⟩
  · rintro ⟨l, m, r, n, rfl, h2, h3, h⟩
    have hm : stripped (l ++ m ++ r) = m := by
      rcases h with ⟨h, _⟩ | ⟨⟨m', rfl, h⟩, _⟩ | ⟨⟨m', rfl, h⟩, _⟩
      · obtain ⟨c1, _, c3, c4⟩ := h.chars
        exact stripped_eq l m r h2 h3 c1 (fun c hc => digit_not_blank (c3 c hc)) (fun c hc => digit_not_blank (c4 c hc))
      all_goals
        obtain ⟨c1, _, _, c4⟩ := h.chars
        refine stripped_eq l _ r h2 h3 (by simp) (fun c hc => ?_) (fun c hc => digit_not_blank (c4 c ?_))
        · simp only [List.head?_cons, Option.some.injEq] at hc
          subst hc; decide
        · rwa [List.getLast?_cons_of_ne_nil c1] at hc
    rw [hm]; exact ⟨n, h⟩

theorem pyInt_error {s : List Char} {e : Err} (h : pyInt s = .error e) : e = .valueError := by
  have key : ∀ (ds : List Char) (f : Nat → Int), (do return f (← intDigits false 0 ds) : Res Int) = .error e → e = .valueError := by
    intro ds f h
    cases hd : intDigits false 0 ds with
    | error x => rw [hd] at h; cases h; exact intDigits_error _ _ _ _ hd
    | ok n => rw [hd] at h; cases h
  unfold pyInt at h
  split at h
  · exact key _ (fun n => -(n : Int)) h
  · exact key _ (fun n => (n : Int)) h
  · exact key _ (fun n => (n : Int)) h

/-- Specification: a word, whatever the case of its letters (in ASCII a capital letter comes 32 places before the small one). -/
def Spelled (word x : List Char) : Prop := List.Forall₂ (fun w c => c = w ∨ c.toNat + 32 = w.toNat) word x

/-- Specification of the values of a switch: on, true, off, false in any case, or a number: 0 is off, any other is on. -/
def Switch (x : List Char) (b : Bool) : Prop :=
  (b = true ∧ (Spelled ['o', 'n'] x ∨ Spelled ['t', 'r', 'u', 'e'] x ∨ ∃ i, IntegerText x i ∧ i ≠ 0)) ∨
    (b = false ∧ (Spelled ['o', 'f', 'f'] x ∨ Spelled ['f', 'a', 'l', 's', 'e'] x ∨ IntegerText x 0))

theorem toLower_toNat (c : Char) : c.toLower.toNat = if 65 ≤ c.toNat ∧ c.toNat ≤ 90 then c.toNat + 32 else c.toNat := by
  have h : ∀ n < 128, (Char.ofNat n).toLower.toNat = if 65 ≤ n ∧ n ≤ 90 then n + 32 else n := by decide
  by_cases hc : c.toNat < 128
  · have := h c.toNat hc
    rwa [Char.ofNat_toNat] at this
  · have h2 : ¬ (65 ≤ c.toNat ∧ c.toNat ≤ 90) := by omega
    rw [if_neg h2]
    have : c.toLower = c := by
      unfold Char.toLower
      split
      next hh =>
        exfalso
        have h3 : c.val.toNat ≤ 90 := hh.2
        exact hc (by show c.val.toNat < 128; omega)
      next => rfl
    rw [this]

theorem toLower_eq_iff {w : Char} (hw : 97 ≤ w.toNat ∧ w.toNat ≤ 122) (c : Char) : c.toLower = w ↔ c = w ∨ c.toNat + 32 = w.toNat := by
  have h := toLower_toNat c
  constructor
  · rintro rfl
    split_ifs at h with hu
    · exact .inr h.symm
    · exact .inl (char_eq_of_toNat h.symm)
  · rintro (rfl | e)
    · apply char_eq_of_toNat; rw [h, if_neg (by omega)]
    · apply char_eq_of_toNat; rw [h, if_pos (by omega)]; exact e

theorem lower_spelled : ∀ (word x : List Char), (∀ w ∈ word, 97 ≤ w.toNat ∧ w.toNat ≤ 122) → (x.map Char.toLower = word ↔ Spelled word x)
  | [], [], _ => by simp [Spelled]
  | [], _ :: _, _ => by simp [Spelled]
  | _ :: _, [], _ => by simp [Spelled]
  | w :: word, c :: x, h => by
    have ih := lower_spelled word x (fun v hv => h v (by simp [hv]))
    have hc := toLower_eq_iff (h w (by simp)) c
    unfold Spelled at ih ⊢
    simp only [List.map_cons, List.cons.injEq, List.forall₂_cons, hc, ih]

theorem integer_chars {s : List Char} {i : Int} (h : IntegerText s i) : ∀ c ∈ s, ¬ (65 ≤ c.toNat ∧ c.toNat ≤ 90) ∧ ¬ (97 ≤ c.toNat ∧ c.toNat ≤ 122) := by
  have space : ∀ c, Space c → ¬ (65 ≤ c.toNat ∧ c.toNat ≤ 90) ∧ ¬ (97 ≤ c.toNat ∧ c.toNat ≤ 122) := by
    intro c hc
    have := (isBlank_iff c).2 hc
    simp [isBlank] at this; omega
  have dec : ∀ m n, Decimal m n → ∀ c ∈ m, ¬ (65 ≤ c.toNat ∧ c.toNat ≤ 90) ∧ ¬ (97 ≤ c.toNat ∧ c.toNat ≤ 122) := by
    intro m n h c hc
    rcases h.chars.2.1 c hc with ⟨h1, h2⟩ | rfl
    · have h1 : 48 ≤ c.toNat := h1
      have h2 : c.toNat ≤ 57 := h2
      omega
    · decide
  obtain ⟨l, m, r, n, rfl, hl, hr, hm⟩ := h
  intro c hc
  simp only [List.mem_append] at hc
  rcases hc with (hc | hc) | hc
  · exact space c (hl c hc)
  · rcases hm with ⟨h, _⟩ | ⟨⟨m', rfl, h⟩, _⟩ | ⟨⟨m', rfl, h⟩, _⟩
    · exact dec m n h c hc
    all_goals
      rcases List.mem_cons.1 hc with rfl | hc
      · decide
      · exact dec m' n h c hc
  · exact space c (hr c hc)

theorem lower_same : ∀ s : List Char, (∀ c ∈ s, ¬ (65 ≤ c.toNat ∧ c.toNat ≤ 90)) → s.map Char.toLower = s
  | [], _ => rfl
  | c :: s, h => by
    rw [List.map_cons, lower_same s (fun d hd => h d (by simp [hd]))]
    congr 1
    apply char_eq_of_toNat; rw [toLower_toNat, if_neg (h c (by simp))]

theorem integer_lower (s : List Char) (i : Int) : IntegerText (s.map Char.toLower) i ↔ IntegerText s i := by
  constructor
  · intro h
    have hs : s.map Char.toLower = s := by
      apply lower_same
      intro c hc hu
      have := (integer_chars h c.toLower (List.mem_map_of_mem hc)).2
      rw [toLower_toNat, if_pos hu] at this
      omega
    rwa [hs] at h
  · intro h
    rwa [lower_same s (fun c hc => (integer_chars h c hc).1)]

theorem word_no_integer {word : List Char} {i : Int} (hne : word ≠ []) (hw : ∀ w ∈ word, 97 ≤ w.toNat ∧ w.toNat ≤ 122) : ¬ IntegerText word i := by
  intro h
  obtain ⟨w, hm⟩ := List.exists_mem_of_ne_nil _ hne
  exact (integer_chars h w hm).2 (hw w hm)

/-- C62, the switch: `type_on_off` accepts exactly the values of a switch, with their meaning, … -/
theorem C62_switch (x : List Char) (b : Bool) : typeOnOff x = .ok b ↔ Switch x b := by
  have on := lower_spelled ['o', 'n'] x (by decide)
  have tr := lower_spelled ['t', 'r', 'u', 'e'] x (by decide)
  have off := lower_spelled ['o', 'f', 'f'] x (by decide)
  have fa := lower_spelled ['f', 'a', 'l', 's', 'e'] x (by decide)
  have num : ∀ word i, word ≠ [] → (∀ w ∈ word, 97 ≤ w.toNat ∧ w.toNat ≤ 122) → x.map Char.toLower = word → ¬ IntegerText x i := by
    intro word i h1 h2 h3 h4
    rw [← integer_lower, h3] at h4
    exact word_no_integer h1 h2 h4
  unfold Switch
  rw [← on, ← tr, ← off, ← fa]
  unfold typeOnOff
  show (if x.map Char.toLower = ['o', 'n'] ∨ x.map Char.toLower = ['t', 'r', 'u', 'e'] then Except.ok true
    else if x.map Char.toLower = ['o', 'f', 'f'] ∨ x.map Char.toLower = ['f', 'a', 'l', 's', 'e'] then Except.ok false
    else (do return decide ((← pyInt (x.map Char.toLower)) ≠ 0) : Res Bool)) = .ok b ↔ _
  split_ifs with h1 h2
  · constructor
    · intro e; cases e; exact .inl ⟨rfl, by tauto⟩
    · rintro (⟨rfl, _⟩ | ⟨rfl, h | h | h⟩)
      · rfl
      · rcases h1 with h1 | h1 <;> rw [h1] at h <;> exact absurd h (by decide)
      · rcases h1 with h1 | h1 <;> rw [h1] at h <;> exact absurd h (by decide)
      · rcases h1 with h1 | h1 <;> exact absurd h (num _ _ (by simp) (by decide) h1)
  · constructor
    · intro e; cases e; exact .inr ⟨rfl, by tauto⟩
    · rintro (⟨rfl, h | h | ⟨i, h, _⟩⟩ | ⟨rfl, _⟩)
      · exact absurd (.inl h) h1
      · exact absurd (.inr h) h1
      · rcases h2 with h2 | h2 <;> exact absurd h (num _ _ (by simp) (by decide) h2)
      · rfl
  · constructor
    · intro e
      cases hp : pyInt (x.map Char.toLower) with
      | error y => rw [hp] at e; cases e
      | ok i =>
        rw [hp] at e
        have hi := (integer_lower x i).1 ((pyInt_iff _ _).1 hp)
        have hb : decide (i ≠ 0) = b := by cases e; rfl
        by_cases h0 : i = 0
        · subst h0; exact .inr ⟨by simpa using hb.symm, .inr (.inr hi)⟩
        · exact .inl ⟨by simpa [h0] using hb.symm, .inr (.inr ⟨i, hi, h0⟩)⟩
    · rintro (⟨rfl, h | h | ⟨i, h, h0⟩⟩ | ⟨rfl, h | h | h⟩)
      · exact absurd (.inl h) h1
      · exact absurd (.inr h) h1
      · rw [(pyInt_iff _ _).2 ((integer_lower x i).2 h)]
        show Except.ok (decide (i ≠ 0)) = _
        simp [h0]
      · exact absurd (.inl h) h2
      · exact absurd (.inr h) h2
      · rw [(pyInt_iff _ _).2 ((integer_lower x 0).2 h)]; rfl

/-- … and everything else is a `ValueError`, which `argparse` reports as a usage error. -/
theorem C62_switch_error (x : List Char) (e : Err) (h : typeOnOff x = .error e) : e = .valueError ∧ ∀ b, ¬ Switch x b := by
  refine ⟨?_, fun b hb => ?_⟩
  · unfold typeOnOff at h
    simp only at h
    split_ifs at h
    cases hp : pyInt (x.map Char.toLower) with
    | error y => rw [hp] at h; cases h; exact pyInt_error hp
    | ok i => rw [hp] at h; cases h
  · rw [(C62_switch x b).2 hb] at h; cases h

/-- The meaning of `-z`: absent or bare, on. -/
theorem C62_z (o : OptArg) (b : Bool) : zOption o = .ok b ↔
    match o with
    | .absent => b = true
    | .bare => b = true
    | .value t => Switch t b := by
  cases o with
  | absent => simp [zOption, eq_comm]
  | bare =>
    have : zOption .bare = .ok true := by decide
    rw [this]; simp [eq_comm]
  | value t => exact C62_switch t b

/-- The meaning of `-l` for the solver: absent or bare, no limit; with a number, that number. For the sudoku and the map: absent, one. -/
theorem C62_limit (o : OptArg) (s : Setting) (h : limitOption o = .ok s) :
    match o with
    | .absent => s.stored = none ∧ oneByDefault s = some 1
    | .bare => s.stored = none ∧ oneByDefault s = none
    | .value t => ∃ i, IntegerText t i ∧ s.stored = some i ∧ oneByDefault s = some i := by
  cases o with
  | absent => cases h; exact ⟨rfl, rfl⟩
  | bare => cases h; exact ⟨rfl, rfl⟩
  | value t =>
    cases hp : pyInt t with
    | error e => simp only [limitOption, hp] at h; cases h
    | ok i =>
      simp only [limitOption, hp] at h
      cases h
      exact ⟨i, (pyInt_iff _ _).1 hp, rfl, rfl⟩

/-- The option `-l` fails only for a text that is no integer. -/
theorem C62_limit_error (o : OptArg) (e : Err) (h : limitOption o = .error e) : e = .valueError ∧ ∃ t, o = .value t ∧ ∀ i, ¬ IntegerText t i := by
  cases o with
  | absent => cases h
  | bare => cases h
  | value t =>
    cases hp : pyInt t with
    | error y =>
      simp only [limitOption, hp] at h
      cases h
      exact ⟨pyInt_error hp, t, rfl, fun i hi => by rw [(pyInt_iff t i).2 hi] at hp; cases hp⟩
    | ok i => simp only [limitOption, hp] at h; cases h

/-- C62, the input file: the demo reads the file it is given. -/
def C62 (source : List Char → InputFile → Res (List Char)) : Prop := ∀ d f, source d f = .ok (f.getD d)

/-- The demos with a JSON file do, … -/
theorem C62_partial : C62 jsonSource := fun _ f => by cases f <;> rfl

/-- … the map demo does not read any file: it opens the opened file. -/
theorem C62_refuted_map : ¬ C62 mapSource ∧ ∀ d content, mapSource d (some content) = .error .typeError :=
  ⟨fun h => (by have := h [] (some []); cases this), fun _ _ => rfl⟩

example : typeOnOff "oN".toList = .ok true ∧ typeOnOff "FALSE".toList = .ok false ∧ typeOnOff " -1_0\n".toList = .ok true ∧
    typeOnOff "00".toList = .ok false ∧ typeOnOff "yes".toList = .error .valueError ∧ typeOnOff "1__0".toList = .error .valueError ∧
    typeOnOff "".toList = .error .valueError ∧ limitOption (.value "+3".toList) = .ok (.num 3) := by decide +kernel

end Satisfy.Props
