import Verif.Py
import Mathlib.Data.List.Basic
import Mathlib.Data.List.Nodup
/-! Lemmas about the association-list model of Python dicts. -/

namespace Satisfy
namespace Dict
variable {α : Type}

theorem get?_set (d : Dict α) (k k' : Name) (v : α) :
    (d.set k v).get? k' = if k = k' then some v else d.get? k' := by
  induction d with
  | nil => simp [set, get?]
  | cons p d ih =>
    obtain ⟨a, b⟩ := p
    by_cases h : a = k
    · subst h; by_cases h2 : a = k' <;> simp [set, get?, h2]
    · by_cases h2 : a = k'
      · subst h2
        have : ¬ k = a := fun e => h e.symm
        simp [set, get?, h, this]
      · simp [set, get?, h, h2, ih]

@[simp] theorem get?_set_self (d : Dict α) (k : Name) (v : α) : (d.set k v).get? k = some v := by
  simp [get?_set]

theorem get?_set_ne (d : Dict α) {k k' : Name} (v : α) (h : k ≠ k') : (d.set k v).get? k' = d.get? k' := by
  simp [get?_set, h]

@[simp] theorem get?_nil (k : Name) : get? ([] : Dict α) k = none := rfl

theorem get?_append (d d' : Dict α) (k : Name) : get? (d ++ d' : Dict α) k = (d.get? k).or (d'.get? k) := by
  induction d with
  | nil => simp
  | cons p d ih =>
    obtain ⟨a, b⟩ := p
    by_cases h : a = k <;> simp [get?, h]
    exact ih

theorem get?_eq_none_iff (d : Dict α) (k : Name) : d.get? k = none ↔ k ∉ d.keys := by
  induction d with
  | nil => simp [keys]
  | cons p d ih =>
    obtain ⟨a, b⟩ := p
    by_cases h : a = k
    · simp [get?, h, keys]
    · have h' : ¬ k = a := fun e => h e.symm
      simp only [get?, h, if_false, keys, List.map_cons, List.mem_cons, h', false_or]
      exact ih

theorem has_iff (d : Dict α) (k : Name) : d.has k = true ↔ k ∈ d.keys := by
  have := get?_eq_none_iff d k
  unfold has
  cases h : d.get? k <;> simp [h] at this ⊢ <;> exact this

theorem has_eq_false_iff (d : Dict α) (k : Name) : d.has k = false ↔ d.get? k = none := by
  unfold has; cases d.get? k <;> simp

theorem set_of_none (d : Dict α) (k : Name) (v : α) (h : d.get? k = none) : d.set k v = d ++ [(k, v)] := by
  induction d with
  | nil => rfl
  | cons p d ih =>
    obtain ⟨a, b⟩ := p
    by_cases h2 : a = k
    · simp [get?, h2] at h
    · simp [get?, h2] at h
      simp [set, h2, ih h]

theorem set_set (d : Dict α) (k : Name) (v w : α) : (d.set k v).set k w = d.set k w := by
  induction d with
  | nil => simp [set]
  | cons p d ih =>
    obtain ⟨a, b⟩ := p
    by_cases h2 : a = k <;> simp [set, h2, ih]

theorem erase_set (d : Dict α) (k : Name) (v : α) (h : d.get? k = none) : (d.set k v).erase k = d := by
  induction d with
  | nil => simp [set, erase]
  | cons p d ih =>
    obtain ⟨a, b⟩ := p
    by_cases h2 : a = k
    · simp [get?, h2] at h
    · simp [get?, h2] at h
      simp [set, erase, h2, ih h]

theorem keys_append (d d' : Dict α) : keys (d ++ d' : Dict α) = d.keys ++ d'.keys := by simp [keys]

theorem mem_of_get? {d : Dict α} {k : Name} {v : α} (h : d.get? k = some v) : (k, v) ∈ d := by
  induction d with
  | nil => simp at h
  | cons p d ih =>
    obtain ⟨a, b⟩ := p
    by_cases h2 : a = k
    · simp [get?, h2] at h; subst h; subst h2; simp
    · simp [get?, h2] at h; exact List.mem_cons_of_mem _ (ih h)

theorem get?_of_mem {d : Dict α} (hn : d.keys.Nodup) {k : Name} {v : α} (h : (k, v) ∈ d) : d.get? k = some v := by
  induction d with
  | nil => simp at h
  | cons p d ih =>
    obtain ⟨a, b⟩ := p
    simp only [keys, List.map_cons, List.nodup_cons] at hn
    rcases List.mem_cons.1 h with h | h
    · injection h with h1 h2; subst h1; subst h2; simp [get?]
    · have : a ≠ k := by rintro rfl; exact hn.1 (List.mem_map.2 ⟨_, h, rfl⟩)
      simp [get?, this]; exact ih hn.2 h

theorem get?_isSome_of_mem_keys {d : Dict α} {k : Name} (h : k ∈ d.keys) : ∃ v, d.get? k = some v := by
  cases hg : d.get? k with
  | none => exact absurd h ((get?_eq_none_iff d k).1 hg)
  | some v => exact ⟨v, rfl⟩

theorem mem_keys_of_get? {d : Dict α} {k : Name} {v : α} (h : d.get? k = some v) : k ∈ d.keys := by
  by_contra hc
  rw [(get?_eq_none_iff d k).2 hc] at h
  cases h

end Dict
end Satisfy
