import Verif.Singleton
import Mathlib.Tactic.ByContra

/-!
# C71: there is one `Infinity()` and one `Undefined()`
-/

namespace Satisfy.Props
open Satisfy

/-- The claim about calling the classes: however they are called, one gets an object of the class, the same one for the same class and different ones for
different classes. -/
def OnePerClass (calls : List SClass) : Prop :=
  ∃ (os : List Nat) (s : Singletons), Singletons.start.news calls = .ok (os.map some, s) ∧ os.length = calls.length ∧
    (∀ (i : Nat) (o : Nat) (c : SClass), os[i]? = some o → calls[i]? = some c → s.objects[o]? = some c) ∧
    (∀ (i j : Nat) (o p : Nat) (c d : SClass), os[i]? = some o → os[j]? = some p → calls[i]? = some c → calls[j]? = some d → (o = p ↔ c = d))

/-- The claim about texts: `repr` and `str` give a text with the name of the class. -/
def Printable (c : SClass) : Prop := c.dunderRepr.asText = .ok (c.name ++ ['(', ')']) ∧ c.dunderStr.asText = .ok c.name

def C71 : Prop := (∀ calls, OnePerClass calls) ∧ ∀ c, Printable c

/-- What holds between the calls. -/
structure Tidy (s : Singletons) : Prop where
  own : ∀ c, ∃ v, s.own c = some v ∧ ∀ o, v = some o → s.objects[o]? = some c
  one : ∀ o c, s.objects[o]? = some c → s.own c = some (some o)

theorem tidy_start : Tidy .start := ⟨fun _ => ⟨none, rfl, by simp⟩, by simp [Singletons.start]⟩

theorem tidy_new {s : Singletons} (h : Tidy s) (c : SClass) :
    ∃ o s', s.new c = .ok (some o, s') ∧ Tidy s' ∧ s'.own c = some (some o) ∧ (∀ d p, s.own d = some (some p) → s'.own d = some (some p)) := by
  obtain ⟨v, hv, hv'⟩ := h.own c
  have hget : ∀ {s : Singletons} {c v}, s.own c = some v → s.get c = .ok v := by intro s c v h; simp [Singletons.get, h]
  match v, hv, hv' with
  | some o, hv, _ => exact ⟨o, s, by simp [Singletons.new, hget hv], h, hv, fun _ _ h => h⟩
  | none, hv, _ =>
    refine ⟨s.objects.length, (s.make c).2.set c s.objects.length, ?_, ?_, by simp [Singletons.set], ?_⟩
    · have h2 : (((s.make c).2.set c s.objects.length).get c) = .ok (some s.objects.length) := hget (by simp [Singletons.set])
      rw [Singletons.new, hget hv, ok_bind, if_pos rfl]
      change (do return (← ((s.make c).2.set c s.objects.length).get c, (s.make c).2.set c s.objects.length)) = _
      rw [h2]; rfl
    · constructor
      · intro d
        by_cases hd : d = c
        · subst hd
          exact ⟨some s.objects.length, by simp [Singletons.set], by simp [Singletons.set, Singletons.make]⟩
        · obtain ⟨w, hw, hw'⟩ := h.own d
          refine ⟨w, by simp [Singletons.set, Singletons.make, hd, hw], ?_⟩
          intro o ho
          have := hw' o ho
          have hl : o < s.objects.length := by
            by_contra hl
            rw [List.getElem?_eq_none (by omega)] at this; cases this
          simp only [Singletons.set, Singletons.make]
          rw [List.getElem?_append_left hl]; exact this
      · intro o d hd
        simp only [Singletons.set, Singletons.make] at hd ⊢
        by_cases hl : o < s.objects.length
        · rw [List.getElem?_append_left hl] at hd
          have := h.one o d hd
          by_cases hdc : d = c
          · subst hdc; rw [hv] at this; cases this
          · simp [hdc, this]
        · rw [List.getElem?_append_right (by omega)] at hd
          have : o = s.objects.length := by
            by_contra hne
            rw [List.getElem?_eq_none (by simp; omega)] at hd; cases hd
          subst this
          simp at hd
          simp [hd]
    · intro d p hd
      by_cases hdc : d = c
      · subst hdc; rw [hv] at hd; cases hd
      · simp [Singletons.set, Singletons.make, hdc, hd]

theorem tidy_news {s : Singletons} (h : Tidy s) (calls : List SClass) :
    ∃ (os : List Nat) (s' : Singletons), s.news calls = .ok (os.map some, s') ∧ Tidy s' ∧ os.length = calls.length ∧
      (∀ (i : Nat) o c, os[i]? = some o → calls[i]? = some c → s'.own c = some (some o)) ∧ (∀ d p, s.own d = some (some p) → s'.own d = some (some p)) := by
  induction calls generalizing s with
  | nil => exact ⟨[], s, rfl, h, rfl, by simp, fun _ _ h => h⟩
  | cons c calls ih =>
    obtain ⟨o, s1, h1, t1, o1, k1⟩ := tidy_new h c
    obtain ⟨os, s2, h2, t2, l2, o2, k2⟩ := ih t1
    refine ⟨o :: os, s2, by rw [Singletons.news, h1, ok_bind]; dsimp only; rw [h2]; rfl, t2, by simp [l2], ?_, fun d p h => k2 d p (k1 d p h)⟩
    intro i p d hp hd
    cases i with
    | zero =>
      simp only [List.getElem?_cons_zero, Option.some.injEq] at hp hd
      subst hp hd
      exact k2 _ _ o1
    | succ i =>
      simp only [List.getElem?_cons_succ] at hp hd
      exact o2 i p d hp hd

/-- Calling the classes is as claimed, in every order and any number of times; and `repr` works. -/
theorem C71_partial : (∀ calls, OnePerClass calls) ∧ ∀ c : SClass, c.dunderRepr.asText = .ok (c.name ++ ['(', ')']) := by
  refine ⟨?_, fun c => rfl⟩
  intro calls
  obtain ⟨os, s, h, t, hl, ho, -⟩ := tidy_news tidy_start calls
  have obj : ∀ (i : Nat) (o : Nat) (c : SClass), os[i]? = some o → calls[i]? = some c → s.objects[o]? = some c := by
    intro i o c hi hc
    have := ho i o c hi hc
    obtain ⟨v, hv, hv'⟩ := t.own c
    rw [hv, Option.some.injEq] at this
    exact hv' o this
  refine ⟨os, s, h, hl, obj, ?_⟩
  intro i j o p c d hi hj hc hd
  constructor
  · rintro rfl
    have h1 := obj i o c hi hc
    rw [obj j o d hj hd] at h1
    injection h1 with h1
    exact h1.symm
  · rintro rfl
    have h1 := ho i o c hi hc
    rw [ho j p c hj hd] at h1
    simpa using h1.symm

/-- `str(INFINITY)` raises `TypeError`, as does formatting it with `"{}"`; and so for `UNDEFINED`. -/
theorem C71_str (c : SClass) : c.dunderStr.asText = .error .typeError := rfl

theorem C71_refuted : ¬ C71 := fun h => by
  have := (h.2 .infinity).2
  rw [C71_str] at this
  cases this

/-- `INFINITY = Infinity()`, `UNDEFINED = Undefined()` and two further calls. -/
example : ((Singletons.start.news [.infinity, .undefined, .infinity, .undefined]).map (·.1)) = .ok [some 0, some 1, some 0, some 1] := by rfl

/-- A derived class without an attribute of its own gives the object of the base class: the lines 34 and 38 are needed. -/
example : ((Singletons.news ⟨fun c => if c = .singleton then some none else none, []⟩ [.singleton, .infinity]).map (·.1)) = .ok [some 0, some 0] := by rfl

end Satisfy.Props
