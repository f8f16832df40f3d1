import Verif.Lemmas.Build
/-! Checking the assumptions of the theorems for a given model. -/

namespace Satisfy

theorem domain_mem {m : Model} {x : Name} {d : List Int} (h : m.domain? x = some d) : ∃ i, (x, i) ∈ m.vars ∧ i.domain = some d := by
  unfold Model.domain? at h
  cases hi : m.vars.get? x with
  | none => rw [hi] at h; simp at h
  | some i => rw [hi] at h; exact ⟨i, Dict.mem_of_get? hi, by simpa using h⟩

theorem wf_check {m : Model} (h1 : m.vars.keys.Nodup) (h2 : ∀ p ∈ m.vars, (p.2.domain.getD []).Nodup) : m.WF := by
  refine ⟨h1, fun x d hd => ?_⟩
  obtain ⟨i, hi, hd⟩ := domain_mem hd
  have := h2 _ hi
  rw [hd] at this; exact this

theorem domain_isSome {m : Model} (hn : m.vars.keys.Nodup) (x : Name) : (m.domain? x).isSome ↔ x ∈ m.pureVars.keys := by
  rw [← pureVars_get? hn]
  constructor
  · intro h; obtain ⟨v, hv⟩ := Option.isSome_iff_exists.1 h; exact Dict.mem_keys_of_get? hv
  · intro h; obtain ⟨v, hv⟩ := Dict.get?_isSome_of_mem_keys h; simp [hv]

theorem assignment_check {m : Model} {σ : Subst} (hn : m.vars.keys.Nodup) (h1 : σ.keys.Nodup) (h2 : ∀ x ∈ σ.keys, x ∈ m.pureVars.keys)
    (h3 : ∀ x ∈ m.pureVars.keys, x ∈ σ.keys) (h4 : ∀ p ∈ σ, p.2 ∈ (m.domain? p.1).getD []) : Assignment m σ := by
  refine ⟨h1, fun x => ⟨fun h => (domain_isSome hn x).2 (h2 x h), fun h => h3 x ((domain_isSome hn x).1 h)⟩, fun x v hv => ?_⟩
  have hm := h4 _ (Dict.mem_of_get? hv)
  cases hd : m.domain? x with
  | none => simp [hd] at hm
  | some d => simp only [hd, Option.getD_some] at hm; exact ⟨d, rfl, hm⟩

theorem nameInv_check {vars : Dict VarInfo} (h1 : vars.keys.Nodup) (h2 : ∀ x ∈ vars.keys, checkName x = true) : NameInv vars :=
  ⟨h1, fun _ _ hk => .inl (h2 _ (List.mem_of_getElem? hk))⟩

theorem sameIds_check {cs : List Constraint} (h : (cs.map (·.id)).Nodup) : SameIds cs :=
  fun _ hc _ hc' he => List.inj_on_of_nodup_map h hc hc' he

end Satisfy
