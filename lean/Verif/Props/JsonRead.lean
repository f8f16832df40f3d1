import Verif.Props.JsonText
/-!
# The reader finds every document

So a text is at most one document, and the hypothesis `ReadsJson` of `Defaults` can be met.
-/

namespace Satisfy.Props
open Satisfy

/-- A character of a number. -/
def InNumber (c : Char) : Prop := c.isDigit = true ∨ c = '-'

/-- The rest does not go on with a number. -/
def Stops (r : List Char) : Prop := ∀ c u, r = c :: u → ¬ InNumber c

theorem digit_number : ∀ d < 10, InNumber (digitChar d) ∧ (digitChar d).toNat - 48 = d ∧ digitChar d ≠ '-' := by
  unfold InNumber; decide

theorem natStr_number (n : Nat) : (∀ c ∈ natStr n, InNumber c ∧ c ≠ '-') ∧ natStr n ≠ [] ∧ digitsValue (natStr n) = n := by
  induction n using Nat.strongRecOn with
  | _ n ih =>
    rw [natStr_eq]
    split
    · next h =>
      obtain ⟨h1, h2, h3⟩ := digit_number n h
      exact ⟨by simpa using ⟨h1, h3⟩, by simp, by simpa [digitsValue] using h2⟩
    · next h =>
      obtain ⟨h1, h2, h3⟩ := digit_number (n % 10) (Nat.mod_lt _ (by omega))
      obtain ⟨i1, _, i3⟩ := ih (n / 10) (by omega)
      refine ⟨fun c hc => ?_, by simp, ?_⟩
      · rcases List.mem_append.1 hc with hc | hc
        · exact i1 c hc
        · simp only [List.mem_singleton] at hc
          subst hc
          exact ⟨h1, h3⟩
      · unfold digitsValue at i3 ⊢
        rw [List.foldl_append, i3]
        simp only [List.foldl_cons, List.foldl_nil, h2]
        omega

theorem intText_number (i : Int) : (∀ c ∈ intText i, InNumber c) ∧ (∃ c u, intText i = c :: u) ∧ numberOf (intText i) = i := by
  obtain ⟨h1, h2, h3⟩ := natStr_number i.natAbs
  unfold intText
  split
  · next h =>
    refine ⟨fun c hc => ?_, ⟨_, _, rfl⟩, ?_⟩
    · rcases List.mem_cons.1 hc with rfl | hc
      · exact .inr rfl
      · exact (h1 c hc).1
    · simp only [numberOf, h3]
      omega
  · next h =>
    obtain ⟨c, u, e⟩ := List.exists_cons_of_ne_nil h2
    refine ⟨fun c hc => (h1 c hc).1, ⟨c, u, e⟩, ?_⟩
    have hc : c ≠ '-' := (h1 c (by rw [e]; simp)).2
    rw [e] at h3
    rw [e]
    unfold numberOf
    split
    · next e' => simp only [List.cons.injEq] at e'; exact absurd e'.1 hc
    · rw [h3]; omega

theorem spanNumber_all {p r : List Char} (hp : ∀ c ∈ p, InNumber c) (hr : Stops r) : spanNumber (p ++ r) = (p, r) := by
  induction p with
  | nil =>
    cases r with
    | nil => rfl
    | cons c r => exact if_neg (hr c r rfl)
  | cons c p ih =>
    have : c.isDigit = true ∨ c = '-' := hp c (by simp)
    rw [List.cons_append, spanNumber, if_pos this, ih (fun x hx => hp x (by simp [hx]))]

theorem readString_all {s r : List Char} (hs : ∀ c ∈ s, Literal c) : readString (s ++ '"' :: r) = some (s, r) := by
  induction s with
  | nil => rfl
  | cons c s ih =>
    obtain ⟨h1, h2, h3⟩ := hs c (by simp)
    rw [List.cons_append, readString, if_neg h1, if_neg, ih (fun x hx => hs x (by simp [hx]))]
    rintro (h | h)
    · exact h2 h
    · have : ' '.toNat = 32 := rfl
      omega

/-- A text that does not begin with white space. -/
def Solidly (t : List Char) : Prop := ∀ c u, t = c :: u → ¬ (c = ' ' ∨ c = '\n' ∨ c = '\t' ∨ c = '\r')

theorem skip_all {w t : List Char} (hw : Blank w) (ht : Solidly t) : (skipBlank (w ++ t)).2 = t := by
  induction w with
  | nil =>
    cases t with
    | nil => rfl
    | cons c t => rw [List.nil_append, skipBlank, if_neg (ht c t rfl)]
  | cons c w ih =>
    rw [List.cons_append, skipBlank, if_pos (hw c (by simp))]
    exact ih (fun x hx => hw x (by simp [hx]))

theorem solid_char {c : Char} {t : List Char} (h : c ∉ [' ', '\n', '\t', '\r']) : Solidly (c :: t) := by
  rintro _ _ ⟨⟩
  simpa using h

/-- The characters a value begins with. -/
theorem value_head {p : List Char} {j : Json} (h : JValue p j) :
    ∃ c u, p = c :: u ∧ (c = '"' ∨ c = '[' ∨ c = '{' ∨ c = 'n' ∨ c = 't' ∨ c = 'f' ∨ InNumber c) := by
  cases h with
  | null => exact ⟨'n', "ull".toList, rfl, by simp⟩
  | true => exact ⟨'t', "rue".toList, rfl, by simp⟩
  | false => exact ⟨'f', "alse".toList, rfl, by simp⟩
  | num i =>
    obtain ⟨h1, ⟨c, u, h2⟩, _⟩ := intText_number i
    refine ⟨c, u, by rw [← intText_toString, h2], ?_⟩
    have := h1 c (by rw [h2]; simp)
    simp [this]
  | str => exact ⟨_, _, rfl, by simp⟩
  | arrEmpty => exact ⟨_, _, rfl, by simp⟩
  | arr => exact ⟨_, _, rfl, by simp⟩
  | objEmpty => exact ⟨_, _, rfl, by simp⟩
  | obj => exact ⟨_, _, rfl, by simp⟩

theorem number_char {c : Char} (h : InNumber c) : c ∉ [' ', '\n', '\t', '\r', '"', '[', ']', '{', '}', ',', 'n', 't', 'f'] := by
  intro hc
  simp only [List.mem_cons, List.not_mem_nil, or_false] at hc
  unfold InNumber at h
  rcases hc with rfl | rfl | rfl | rfl | rfl | rfl | rfl | rfl | rfl | rfl | rfl | rfl | rfl <;> revert h <;> decide

theorem value_solid {p : List Char} {j : Json} (h : JValue p j) (r : List Char) : Solidly (p ++ r) ∧ (∀ u, p ++ r ≠ ']' :: u) := by
  obtain ⟨c, u, rfl, hc⟩ := value_head h
  have : c ∉ [' ', '\n', '\t', '\r'] ∧ c ≠ ']' := by
    rcases hc with rfl | rfl | rfl | rfl | rfl | rfl | hc
    iterate 6 decide
    have := number_char hc
    simp only [List.mem_cons, List.not_mem_nil, or_false, not_or] at this ⊢
    tauto
  refine ⟨solid_char this.1, fun v e => this.2 ?_⟩
  simp only [List.cons_append, List.cons.injEq] at e
  exact e.1

theorem stops_blank {w : List Char} {c : Char} {u : List Char} (hw : Blank w) (hc : ¬ InNumber c) : Stops (w ++ c :: u) := by
  rintro d v e
  cases w with
  | nil => cases e; exact hc
  | cons x w =>
    simp only [List.cons_append, List.cons.injEq] at e
    obtain ⟨rfl, _⟩ := e
    intro h
    have h1 := number_char h
    have := hw x (by simp)
    simp only [List.mem_cons, List.not_mem_nil, or_false, not_or] at h1
    tauto

theorem not_in : ¬ InNumber ',' ∧ ¬ InNumber ']' ∧ ¬ InNumber '}' := by unfold InNumber; decide

theorem read_array (f : Nat) (u : List Char) (h : ∀ r, (skipBlank u).2 ≠ ']' :: r) :
    readValue (f + 1) ('[' :: u) = (readItems f u).map (fun p => (.arr p.1, p.2)) := by
  rw [readValue]
  simp only [reduceIte, Char.reduceEq]

theorem read_object (f : Nat) (u : List Char) (h : ∀ r, (skipBlank u).2 ≠ '}' :: r) {l : List (List Char × Json)} {r : List Char}
    (hr : readFields f u = some (l, r)) (hn : (l.map Prod.fst).Nodup) : readValue (f + 1) ('{' :: u) = some (.obj l, r) := by
  rw [readValue]
  simp only [reduceIte, Char.reduceEq]
  rw [hr]
  exact if_pos hn

theorem read_number (f : Nat) {t : List Char} {c : Char} {u : List Char} (ht : t = c :: u) (hc : InNumber c) : readValue (f + 1) t = readNumber t := by
  subst ht
  have := number_char hc
  simp only [List.mem_cons, List.not_mem_nil, or_false, not_or] at this
  obtain ⟨_, _, _, _, h1, h2, _, h3, _, _, h4, h5, h6⟩ := this
  rw [readValue]
  simp only [h1, h2, h3, h4, h5, h6, if_false]

theorem items_head {t : List Char} {l : List Json} (h : JItems t l) : ∀ r u, (skipBlank (t ++ r)).2 ≠ ']' :: u := by
  intro r u
  cases h with
  | last ha hb h =>
    rw [List.append_assoc, List.append_assoc, skip_all ha (value_solid h _).1]
    exact (value_solid h _).2 u
  | more ha hb h hs =>
    rw [List.append_assoc, List.append_assoc, List.append_assoc, skip_all ha (value_solid h _).1]
    exact (value_solid h _).2 u

theorem fields_head {t : List Char} {l : List (List Char × Json)} (h : JFields t l) : ∀ r u, (skipBlank (t ++ r)).2 ≠ '}' :: u := by
  intro r u
  have key : ∀ {a k x : List Char}, Blank a → (skipBlank (a ++ ('"' :: k ++ ['"']) ++ x)).2 ≠ '}' :: u := by
    intro a k x ha
    rw [List.append_assoc, List.cons_append, List.cons_append, skip_all ha (solid_char (by decide))]
    simp
  cases h with
  | last ha hb hc hd hk h =>
    simp only [List.append_assoc] at key ⊢
    exact key ha
  | more ha hb hc hd hk h hs =>
    simp only [List.append_assoc] at key ⊢
    exact key ha

mutual

theorem value_read : ∀ {p : List Char} {j : Json}, JValue p j → ∀ (f : Nat) (r : List Char), p.length ≤ f → Stops r → readValue f (p ++ r) = some (j, r)
  | _, _, .null, f + 1, r, _, _ => by simp [readValue, readWord]
  | _, _, .true, f + 1, r, _, _ => by simp [readValue, readWord]
  | _, _, .false, f + 1, r, _, _ => by simp [readValue, readWord]
  | _, _, .num i, f, r, hf, hr => by
    rw [← intText_toString] at hf ⊢
    obtain ⟨h1, ⟨c, u, h2⟩, h3⟩ := intText_number i
    match f with
    | 0 => rw [h2] at hf; simp at hf
    | f + 1 =>
      rw [read_number f (c := c) (u := u ++ r) (by rw [h2]; rfl) (h1 c (by rw [h2]; simp)), readNumber, spanNumber_all h1 hr]
      simp only [h3, if_true]
  | _, _, .str (s := s) hs, f + 1, r, _, _ => by
    rw [List.append_assoc, List.cons_append, readValue]
    simp only [List.singleton_append]
    rw [readString_all hs]
    rfl
  | _, _, .arrEmpty (w := w) hw, f + 1, r, _, _ => by
    rw [List.append_assoc, List.cons_append, readValue]
    simp only [List.singleton_append, reduceIte, Char.reduceEq]
    rw [skip_all hw (solid_char (by decide))]
    rfl
  | _, _, .arr (t := t) h, f + 1, r, hf, _ => by
    rw [List.append_assoc, List.cons_append, read_array f _ (items_head h _), List.singleton_append, items_read h f r (by simp at hf; omega)]
    rfl
  | _, _, .objEmpty hw, f + 1, r, _, _ => by
    rw [List.append_assoc, List.cons_append, readValue]
    simp only [List.singleton_append, reduceIte, Char.reduceEq]
    rw [skip_all hw (solid_char (by decide))]
    rfl
  | _, _, .obj h hn, f + 1, r, hf, _ => by
    rw [List.append_assoc, List.cons_append]
    exact read_object f _ (fields_head h _) (by rw [List.singleton_append, fields_read h f r (by simp at hf; omega)]) hn

theorem items_read : ∀ {t : List Char} {l : List Json}, JItems t l → ∀ (f : Nat) (r : List Char), t.length < f → readItems f (t ++ ']' :: r) = some (l, r)
  | _, _, .last ha hb h, f + 1, r, hf => by
    rw [List.append_assoc, List.append_assoc, readItems, skip_all ha (value_solid h _).1,
      value_read h f _ (by simp at hf; omega) (stops_blank hb not_in.2.1)]
    simp only
    rw [skip_all hb (solid_char (by decide))]
    rfl
  | _, _, .more ha hb h hs, f + 1, r, hf => by
    rw [List.append_assoc, List.append_assoc, List.append_assoc, readItems, skip_all ha (value_solid h _).1, List.cons_append,
      value_read h f _ (by simp at hf; omega) (stops_blank hb not_in.1)]
    simp only
    rw [skip_all hb (solid_char (by decide))]
    simp only
    rw [items_read hs f r (by simp at hf; omega)]
    rfl

theorem fields_read : ∀ {t : List Char} {l : List (List Char × Json)}, JFields t l → ∀ (f : Nat) (r : List Char), t.length < f →
    readFields f (t ++ '}' :: r) = some (l, r)
  | _, _, .last ha hb hc hd hk h, f + 1, r, hf => by
    simp only [List.append_assoc, List.cons_append, List.nil_append]
    rw [readFields, skip_all ha (solid_char (by decide))]
    simp only
    rw [readString_all hk]
    simp only
    rw [skip_all hb (solid_char (by decide))]
    simp only
    rw [skip_all hc (value_solid h _).1, value_read h f _ (by simp at hf; omega) (stops_blank hd not_in.2.2)]
    simp only
    rw [skip_all hd (solid_char (by decide))]
    rfl
  | _, _, .more ha hb hc hd hk h hs, f + 1, r, hf => by
    simp only [List.append_assoc, List.cons_append, List.nil_append]
    rw [readFields, skip_all ha (solid_char (by decide))]
    simp only
    rw [readString_all hk]
    simp only
    rw [skip_all hb (solid_char (by decide))]
    simp only
    rw [skip_all hc (value_solid h _).1, value_read h f _ (by simp at hf; omega) (stops_blank hd not_in.1)]
    simp only
    rw [skip_all hd (solid_char (by decide))]
    simp only
    rw [fields_read hs f r (by simp at hf; omega)]
    rfl

end

/-- The document of a text. -/
def readJson (t : List Char) : Option Json := match readValue t.length (skipBlank t).2 with
  | some (j, r) => if (skipBlank r).2 = [] then some j else none
  | none => none

/-- The reader finds the document. -/
theorem readJson_iff {t : List Char} {j : Json} : readJson t = some j ↔ JsonText t j := by
  constructor
  · intro h
    unfold readJson at h
    split at h
    · next i r e =>
      split at h
      · next hr =>
        cases h
        obtain ⟨p, h3, h4⟩ := (read_ok _).1 _ _ _ e
        obtain ⟨wa, a1, a2⟩ := skipBlank_ex t
        obtain ⟨wb, b1, b2⟩ := skipBlank_ex r
        rw [hr, List.append_nil] at b2
        exact ⟨wa, p, wb, a1, b1, h4, by rw [a2, h3, b2]; simp⟩
      · cases h
    · cases h
  · rintro ⟨a, m, b, ha, hb, h, rfl⟩
    have hs : Stops b := by
      rintro c u rfl h
      have := number_char h
      have := hb c (by simp)
      simp only [List.mem_cons, List.not_mem_nil, or_false, not_or] at *
      tauto
    unfold readJson
    rw [List.append_assoc, skip_all ha (value_solid h _).1, value_read h _ _ (by simp; omega) hs]
    simp only
    have := skip_all hb (t := []) (by rintro _ _ ⟨⟩)
    rw [List.append_nil] at this
    rw [if_pos this]

/-- A text is at most one document. -/
theorem jsonText_unique {t : List Char} {i j : Json} (hi : JsonText t i) (hj : JsonText t j) : i = j :=
  Option.some.inj ((readJson_iff.2 hi).symm.trans (readJson_iff.2 hj))

end Satisfy.Props
