import Verif.Props.Programs
import Verif.Props.ReprText
/-!
# Texts that are JSON documents

A description of the texts that are documents, without floats and escapes in strings, as far as the default data of the demos need it. The reader below is only used to show that a
given text is a document.
-/

namespace Satisfy.Props
open Satisfy

/-- White space of JSON. -/
def Blank (t : List Char) : Prop := ∀ c ∈ t, c = ' ' ∨ c = '\n' ∨ c = '\t' ∨ c = '\r'

/-- A character that stands for itself in a string. -/
def Literal (c : Char) : Prop := c ≠ '"' ∧ c ≠ '\\' ∧ ' '.toNat ≤ c.toNat

mutual

/-- Specification: the texts of a value. -/
inductive JValue : List Char → Json → Prop
  | null : JValue "null".toList .null
  | true : JValue "true".toList (.bool true)
  | false : JValue "false".toList (.bool false)
  | num (i : Int) : JValue (toString i).toList (.num i)
  | str {s} : (∀ c ∈ s, Literal c) → JValue ('"' :: s ++ ['"']) (.str s)
  | arrEmpty {w} : Blank w → JValue ('[' :: w ++ [']']) (.arr [])
  | arr {t l} : JItems t l → JValue ('[' :: t ++ [']']) (.arr l)
  | objEmpty {w} : Blank w → JValue ('{' :: w ++ ['}']) (.obj [])
  | obj {t l} : JFields t l → (l.map Prod.fst).Nodup → JValue ('{' :: t ++ ['}']) (.obj l)

/-- Specification: the texts of the elements of an array. -/
inductive JItems : List Char → List Json → Prop
  | last {a b t j} : Blank a → Blank b → JValue t j → JItems (a ++ t ++ b) [j]
  | more {a b t j r l} : Blank a → Blank b → JValue t j → JItems r l → JItems (a ++ t ++ b ++ ',' :: r) (j :: l)

/-- Specification: the texts of the fields of an object. -/
inductive JFields : List Char → List (List Char × Json) → Prop
  | last {a b c d k t j} : Blank a → Blank b → Blank c → Blank d → (∀ x ∈ k, Literal x) → JValue t j →
      JFields (a ++ ('"' :: k ++ ['"']) ++ b ++ ':' :: c ++ t ++ d) [(k, j)]
  | more {a b c d k t j r l} : Blank a → Blank b → Blank c → Blank d → (∀ x ∈ k, Literal x) → JValue t j → JFields r l →
      JFields (a ++ ('"' :: k ++ ['"']) ++ b ++ ':' :: c ++ t ++ d ++ ',' :: r) ((k, j) :: l)

end

/-- Specification: the texts that are a document. -/
def JsonText (t : List Char) (j : Json) : Prop := ∃ a m b, Blank a ∧ Blank b ∧ JValue m j ∧ t = a ++ m ++ b

/-! ## A reader -/

/-- White space and the rest. -/
def skipBlank : List Char → List Char × List Char
  | [] => ([], [])
  | c :: t => if c = ' ' ∨ c = '\n' ∨ c = '\t' ∨ c = '\r' then (c :: (skipBlank t).1, (skipBlank t).2) else ([], c :: t)

theorem skipBlank_eq (t : List Char) : Blank (skipBlank t).1 ∧ t = (skipBlank t).1 ++ (skipBlank t).2 := by
  induction t with
  | nil => exact ⟨by simp [Blank, skipBlank], rfl⟩
  | cons c t ih =>
    unfold skipBlank
    split
    · next h => exact ⟨by intro x hx; rcases List.mem_cons.1 hx with rfl | hx; exacts [h, ih.1 x hx], by rw [List.cons_append, ← ih.2]⟩
    · exact ⟨by simp [Blank], rfl⟩

theorem skipBlank_ex (t : List Char) : ∃ w, Blank w ∧ t = w ++ (skipBlank t).2 := ⟨_, skipBlank_eq t⟩

/-- A string after its quotation mark. -/
def readString : List Char → Option (List Char × List Char)
  | [] => none
  | c :: t =>
    if c = '"' then some ([], t)
    else if c = '\\' ∨ c.toNat < 32 then none
    else match readString t with
      | some (s, r) => some (c :: s, r)
      | none => none

theorem readString_ok {t s r : List Char} (h : readString t = some (s, r)) : (∀ c ∈ s, Literal c) ∧ t = s ++ '"' :: r := by
  induction t generalizing s with
  | nil => cases h
  | cons c t ih =>
    unfold readString at h
    split at h
    · next hc => cases h; exact ⟨by simp, by rw [hc]; rfl⟩
    · next hc =>
      split at h
      · cases h
      · next hd =>
        cases e : readString t with
        | none => rw [e] at h; cases h
        | some p =>
          obtain ⟨s', r'⟩ := p
          rw [e] at h
          cases h
          obtain ⟨h1, h2⟩ := ih e
          refine ⟨fun x hx => ?_, by rw [h2]; rfl⟩
          rcases List.mem_cons.1 hx with rfl | hx
          · exact ⟨hc, fun e => hd (.inl e), by have : ¬ x.toNat < 32 := fun e => hd (.inr e); simpa using this⟩
          · exact h1 x hx

/-- The characters of a number and the rest. -/
def spanNumber : List Char → List Char × List Char
  | [] => ([], [])
  | c :: t => if c.isDigit ∨ c = '-' then (c :: (spanNumber t).1, (spanNumber t).2) else ([], c :: t)

theorem spanNumber_eq (t : List Char) : t = (spanNumber t).1 ++ (spanNumber t).2 := by
  induction t with
  | nil => rfl
  | cons c t ih =>
    unfold spanNumber
    split
    · rw [List.cons_append, ← ih]
    · rfl

/-- The value of some digits. -/
def digitsValue (t : List Char) : Nat := t.foldl (fun n c => 10 * n + (c.toNat - 48)) 0

/-- The number with these characters. -/
def numberOf (t : List Char) : Int := match t with
  | '-' :: t => -(digitsValue t : Int)
  | t => digitsValue t

/-- A text that begins with a number. -/
def readNumber (t : List Char) : Option (Json × List Char) :=
  if intText (numberOf (spanNumber t).1) = (spanNumber t).1 then some (.num (numberOf (spanNumber t).1), (spanNumber t).2) else none

theorem readNumber_ok {t r : List Char} {j : Json} (h : readNumber t = some (j, r)) : ∃ p, t = p ++ r ∧ JValue p j := by
  unfold readNumber at h
  split at h
  · next e =>
    cases h
    refine ⟨_, spanNumber_eq t, ?_⟩
    have h := JValue.num (numberOf (spanNumber t).1)
    rwa [← intText_toString, e] at h
  · cases h

/-- A word at the beginning. -/
def readWord (w : List Char) (j : Json) (t : List Char) : Option (Json × List Char) := if t.take w.length = w then some (j, t.drop w.length) else none

theorem readWord_ok {w t r : List Char} {i j : Json} (h : readWord w i t = some (j, r)) : t = w ++ r ∧ i = j := by
  unfold readWord at h
  split at h
  · next e =>
    cases h
    exact ⟨by conv_lhs => rw [← List.take_append_drop w.length t, e], rfl⟩
  · cases h

mutual

/-- The value at the beginning of a text, with fuel. -/
def readValue : Nat → List Char → Option (Json × List Char)
  | 0, _ => none
  | f + 1, t =>
    match t with
    | [] => none
    | c :: u =>
      if c = '"' then (readString u).map (fun p => (.str p.1, p.2))
      else if c = '[' then match (skipBlank u).2 with
        | ']' :: r => some (.arr [], r)
        | _ => (readItems f u).map (fun p => (.arr p.1, p.2))
      else if c = '{' then match (skipBlank u).2 with
        | '}' :: r => some (.obj [], r)
        | _ => match readFields f u with
          | some (l, r) => if (l.map Prod.fst).Nodup then some (.obj l, r) else none
          | none => none
      else if c = 'n' then readWord "null".toList .null t
      else if c = 't' then readWord "true".toList (.bool true) t
      else if c = 'f' then readWord "false".toList (.bool false) t
      else readNumber t

/-- The elements of an array and the closing bracket. -/
def readItems : Nat → List Char → Option (List Json × List Char)
  | 0, _ => none
  | f + 1, t =>
    match readValue f (skipBlank t).2 with
    | none => none
    | some (j, r) => match (skipBlank r).2 with
      | ',' :: u => (readItems f u).map (fun p => (j :: p.1, p.2))
      | ']' :: u => some ([j], u)
      | _ => none

/-- The fields of an object and the closing bracket. -/
def readFields : Nat → List Char → Option (List (List Char × Json) × List Char)
  | 0, _ => none
  | f + 1, t =>
    match (skipBlank t).2 with
    | '"' :: u => match readString u with
      | none => none
      | some (k, r) => match (skipBlank r).2 with
        | ':' :: v => match readValue f (skipBlank v).2 with
          | none => none
          | some (j, r) => match (skipBlank r).2 with
            | ',' :: u => (readFields f u).map (fun p => ((k, j) :: p.1, p.2))
            | '}' :: u => some ([(k, j)], u)
            | _ => none
        | _ => none
    | _ => none

end

theorem read_ok (f : Nat) :
    (∀ t j r, readValue f t = some (j, r) → ∃ p, t = p ++ r ∧ JValue p j) ∧
    (∀ t l r, readItems f t = some (l, r) → ∃ p, t = p ++ ']' :: r ∧ JItems p l) ∧
    (∀ t l r, readFields f t = some (l, r) → ∃ p, t = p ++ '}' :: r ∧ JFields p l) := by
  induction f with
  | zero => exact ⟨fun _ _ _ h => by simp [readValue] at h, fun _ _ _ h => by simp [readItems] at h, fun _ _ _ h => by simp [readFields] at h⟩
  | succ f ih =>
    obtain ⟨ih1, ih2, ih3⟩ := ih
    refine ⟨fun t j r h => ?_, fun t l r h => ?_, fun t l r h => ?_⟩
    · unfold readValue at h
      cases t with
      | nil => cases h
      | cons c u =>
        simp only at h
        split at h
        · next hc =>
          subst hc
          cases e : readString u with
          | none => rw [e] at h; cases h
          | some p =>
            rw [e] at h
            cases h
            obtain ⟨h1, h2⟩ := readString_ok (t := u) (s := p.1) (r := p.2) e
            exact ⟨_, by rw [h2]; simp, .str h1⟩
        split at h
        · next hc =>
          subst hc
          obtain ⟨wb1, b1, b2⟩ := skipBlank_ex u
          split at h
          · next r' e =>
            cases h
            rw [e] at b2
            exact ⟨_, by conv_lhs => rw [b2]
                         simp, .arrEmpty b1⟩
          · cases e : readItems f u with
            | none => rw [e] at h; cases h
            | some p =>
              rw [e] at h
              cases h
              obtain ⟨q, h1, h2⟩ := ih2 u p.1 p.2 e
              exact ⟨_, by rw [h1]; simp, .arr h2⟩
        split at h
        · next hc =>
          subst hc
          obtain ⟨wb1, b1, b2⟩ := skipBlank_ex u
          split at h
          · next r' e =>
            cases h
            rw [e] at b2
            exact ⟨_, by conv_lhs => rw [b2]
                         simp, .objEmpty b1⟩
          · split at h
            · next l r' e =>
              split at h
              · next hn =>
                cases h
                obtain ⟨q, h1, h2⟩ := ih3 u _ _ e
                exact ⟨_, by rw [h1]; simp, .obj h2 hn⟩
              · cases h
            · cases h
        split at h
        · obtain ⟨h1, rfl⟩ := readWord_ok h; exact ⟨_, h1, .null⟩
        split at h
        · obtain ⟨h1, rfl⟩ := readWord_ok h; exact ⟨_, h1, .true⟩
        split at h
        · obtain ⟨h1, rfl⟩ := readWord_ok h; exact ⟨_, h1, .false⟩
        exact readNumber_ok h
    · unfold readItems at h
      obtain ⟨wb1, b1, b2⟩ := skipBlank_ex t
      split at h
      · cases h
      · next j q e =>
        obtain ⟨p, h1, h2⟩ := ih1 _ _ _ e
        obtain ⟨wc1, c1, c2⟩ := skipBlank_ex q
        split at h
        · next u e2 =>
          cases e3 : readItems f u with
          | none => rw [e3] at h; cases h
          | some z =>
            rw [e3] at h
            cases h
            obtain ⟨p', g1, g2⟩ := ih2 u z.1 z.2 e3
            refine ⟨_, b2.trans ?_, .more b1 c1 h2 g2⟩
            rw [h1, c2, e2, g1]
            simp
        · next u e2 =>
          cases h
          refine ⟨_, b2.trans ?_, .last b1 c1 h2⟩
          rw [h1, c2, e2]
          simp
        · cases h
    · unfold readFields at h
      obtain ⟨wb1, b1, b2⟩ := skipBlank_ex t
      split at h
      · next u e =>
        split at h
        · cases h
        · next k q e1 =>
          obtain ⟨k1, k2⟩ := readString_ok e1
          obtain ⟨wc1, c1, c2⟩ := skipBlank_ex q
          split at h
          · next v e2 =>
            obtain ⟨wd1, d1, d2⟩ := skipBlank_ex v
            split at h
            · cases h
            · next j q' e3 =>
              obtain ⟨p, h1, h2⟩ := ih1 _ _ _ e3
              obtain ⟨wf1, f1, f2⟩ := skipBlank_ex q'
              split at h
              · next u' e4 =>
                cases e5 : readFields f u' with
                | none => rw [e5] at h; cases h
                | some z =>
                  rw [e5] at h
                  cases h
                  obtain ⟨p', g1, g2⟩ := ih3 u' z.1 z.2 e5
                  refine ⟨_, b2.trans ?_, .more b1 c1 d1 f1 k1 h2 g2⟩
                  rw [e, k2, c2, e2, d2, h1, f2, e4, g1]
                  simp
              · next u' e4 =>
                cases h
                refine ⟨_, b2.trans ?_, .last b1 c1 d1 f1 k1 h2⟩
                rw [e, k2, c2, e2, d2, h1, f2, e4]
                simp
              · cases h
          · cases h
      · cases h

mutual

/-- Equality of documents. -/
def sameJson : Json → Json → Bool
  | .null, .null => true
  | .bool a, .bool b => a == b
  | .num a, .num b => a == b
  | .str a, .str b => a == b
  | .arr a, .arr b => sameItems a b
  | .obj a, .obj b => sameFields a b
  | _, _ => false

/-- Equality of lists of documents. -/
def sameItems : List Json → List Json → Bool
  | [], [] => true
  | a :: l, b :: r => sameJson a b && sameItems l r
  | _, _ => false

/-- Equality of fields. -/
def sameFields : List (List Char × Json) → List (List Char × Json) → Bool
  | [], [] => true
  | (k, a) :: l, (k', b) :: r => k == k' && sameJson a b && sameFields l r
  | _, _ => false

end

mutual

theorem sameJson_ok : ∀ {a b : Json}, sameJson a b = true → a = b
  | .null, .null, _ => rfl
  | .bool a, .bool b, h => by simpa [sameJson] using h
  | .num a, .num b, h => by simpa [sameJson] using h
  | .str a, .str b, h => by simpa [sameJson] using h
  | .arr a, .arr b, h => by rw [sameItems_ok (a := a) (b := b) (by simpa [sameJson] using h)]
  | .obj a, .obj b, h => by rw [sameFields_ok (a := a) (b := b) (by simpa [sameJson] using h)]

theorem sameItems_ok : ∀ {a b : List Json}, sameItems a b = true → a = b
  | [], [], _ => rfl
  | a :: l, b :: r, h => by
    simp only [sameItems, Bool.and_eq_true] at h
    rw [sameJson_ok h.1, sameItems_ok h.2]

theorem sameFields_ok : ∀ {a b : List (List Char × Json)}, sameFields a b = true → a = b
  | [], [], _ => rfl
  | (k, a) :: l, (k', b) :: r, h => by
    simp only [sameFields, Bool.and_eq_true, beq_iff_eq] at h
    rw [h.1.1, sameJson_ok h.1.2, sameFields_ok h.2]

end

/-- The reader finds this document. -/
def readsAs (t : List Char) (j : Json) : Bool := match readValue t.length (skipBlank t).2 with
  | some (i, r) => (skipBlank r).2.isEmpty && sameJson i j
  | none => false

theorem jsonText_of {t : List Char} {j : Json} (h : readsAs t j = true) : JsonText t j := by
  unfold readsAs at h
  split at h
  · next i r e =>
    simp only [Bool.and_eq_true, List.isEmpty_iff] at h
    obtain ⟨h1, h2⟩ := h
    cases sameJson_ok h2
    obtain ⟨p, h3, h4⟩ := (read_ok _).1 _ _ _ e
    obtain ⟨wa1, a1, a2⟩ := skipBlank_ex t
    obtain ⟨wb1, b1, b2⟩ := skipBlank_ex r
    rw [h1, List.append_nil] at b2
    exact ⟨_, p, _, a1, b1, h4, by conv_lhs => rw [a2, h3, b2]
                                   simp⟩
  · cases h

end Satisfy.Props
