import Verif.Model
import Verif.Lemmas.Constraint
import Std.Data.String.ToNat
/-! Lemmas about model building: fresh names and the effect of each call. -/

namespace Satisfy

theorem toString_inj {n m : Nat} (h : toString n = toString m) : n = m := by
  have h1 : (toString n).toNat? = some n := by simp
  rw [h] at h1
  simpa using h1.symm

theorem prefix_inj {p : String} {n m : Nat} (h : p ++ toString n = p ++ toString m) : n = m := by
  have := congrArg String.toList h
  simp only [String.toList_append, List.append_cancel_left_eq] at this
  exact toString_inj (String.toList_inj.1 this)

theorem vp_ne (n m : Nat) : "_v" ++ toString n ≠ "_p" ++ toString m := by
  intro h
  have := congrArg String.toList h
  simp [String.toList_append] at this

theorem checkName_underscore (p : String) (n : Nat) (hp : p = "_v" ∨ p = "_p") : checkName (p ++ toString n) = false := by
  have key : ∀ (c : Char) (cs : List Char), c.isAlpha = false →
      (match (if (c :: cs).getLast? = some '\n' then (c :: cs).dropLast else c :: cs) with
        | [] => false
        | c :: cs => c.isAlpha && cs.all isWord) = false := by
    intro c cs hc
    by_cases h : (c :: cs).getLast? = some '\n'
    · simp only [h, if_true]
      cases cs with
      | nil => rfl
      | cons d ds => simp [List.dropLast, hc]
    · simp only [h, if_false, hc, Bool.false_and]
  rcases hp with rfl | rfl
  · unfold checkName
    rw [String.toList_append]
    exact key '_' _ (by decide)
  · unfold checkName
    rw [String.toList_append]
    exact key '_' _ (by decide)

/-- All names in use are either acceptable user names or generated from their own position. -/
def NameInv (vars : Dict VarInfo) : Prop :=
  vars.keys.Nodup ∧
  ∀ (i : Nat) (k : Name), vars.keys[i]? = some k → checkName k = true ∨ k = "_v" ++ toString i ∨ k = "_p" ++ toString i

theorem generated_fresh {vars : Dict VarInfo} (h : NameInv vars) (p : String) (hp : p = "_v" ∨ p = "_p") :
    vars.get? (p ++ toString vars.length) = none := by
  rw [Dict.get?_eq_none_iff]
  intro hm
  obtain ⟨i, hi, hk⟩ := List.mem_iff_getElem.1 hm
  have hi' : i < vars.length := by simpa [Dict.keys] using hi
  have := h.2 i _ (List.getElem?_eq_some_iff.2 ⟨hi, rfl⟩)
  rw [hk] at this
  rcases this with h1 | h1 | h1
  · rw [checkName_underscore p _ hp] at h1; simp at h1
  · rcases hp with rfl | rfl
    · have := prefix_inj h1; omega
    · exact vp_ne _ _ h1.symm
  · rcases hp with rfl | rfl
    · exact vp_ne _ _ h1
    · have := prefix_inj h1; omega

theorem getName_spec {p : String} {n : Option Name} {w w' : World} {r : Res Name} (h : getName p n w = (w', r)) :
    w' = w ∧ (∀ nm, r = .ok nm → (n = none ∧ nm = p ++ toString w.model.vars.length) ∨
      (n = some nm ∧ checkName nm = true ∧ w.model.vars.get? nm = none)) := by
  cases n with
  | none =>
    simp only [getName, bind, Api.bind, Api.model, pure, Api.pure, Prod.mk.injEq] at h
    refine ⟨h.1.symm, ?_⟩
    rintro nm rfl
    have := h.2; simp only [Except.ok.injEq] at this
    exact .inl ⟨rfl, this.symm⟩
  | some nm =>
    simp only [getName, bind, Api.bind, Api.model] at h
    split at h
    · simp only [Api.raise, Prod.mk.injEq] at h; exact ⟨h.1.symm, by rintro nm rfl; simp at h⟩
    · split at h
      · simp only [Api.raise, Prod.mk.injEq] at h; exact ⟨h.1.symm, by rintro nm rfl; simp at h⟩
      · rename_i h1 h2
        simp only [pure, Api.pure, Prod.mk.injEq] at h
        refine ⟨h.1.symm, ?_⟩
        rintro nm' rfl
        have := h.2; simp only [Except.ok.injEq] at this; subst this
        refine .inr ⟨rfl, by simpa using h1, ?_⟩
        rw [← Dict.has_eq_false_iff]; simpa using h2

theorem getName_fresh {p : String} (hp : p = "_v" ∨ p = "_p") {n : Option Name} {w w' : World} {nm : Name}
    (h : getName p n w = (w', .ok nm)) (hi : NameInv w.model.vars) : w.model.vars.get? nm = none := by
  rcases (getName_spec h).2 nm rfl with ⟨_, rfl⟩ | ⟨_, _, h⟩
  · exact generated_fresh hi p hp
  · exact h

theorem nameInv_add {p : String} (hp : p = "_v" ∨ p = "_p") {n : Option Name} {w w' : World} {nm : Name}
    (h : getName p n w = (w', .ok nm)) (hi : NameInv w.model.vars) (info : VarInfo) :
    NameInv (w.model.vars.set nm info) ∧
      w.model.vars.set nm info = w.model.vars ++ [(nm, info)] := by
  have hf := getName_fresh hp h hi
  have hset := Dict.set_of_none _ nm info hf
  refine ⟨?_, hset⟩
  rw [hset]
  constructor
  · rw [Dict.keys_append, List.nodup_append]
    refine ⟨hi.1, by simp [Dict.keys], ?_⟩
    intro a ha b hb
    simp [Dict.keys] at hb
    subst hb
    rintro rfl
    exact (Dict.get?_eq_none_iff _ _).1 hf ha
  · intro i k hk
    rw [Dict.keys_append, List.getElem?_append] at hk
    split at hk
    · exact hi.2 i k hk
    · rename_i hlt
      have hl : w.model.vars.keys.length = w.model.vars.length := by simp [Dict.keys]
      simp only [Dict.keys, List.map_cons, List.map_nil] at hk
      have hi0 : i = w.model.vars.length := by
        have := (List.getElem?_eq_some_iff.1 hk).1
        simp [Dict.keys] at this hlt
        omega
      have : k = nm := by
        rw [hi0] at hk; simp at hk; exact hk.symm
      subst this
      rcases (getName_spec h).2 k rfl with ⟨_, h⟩ | ⟨_, h, _⟩
      · rw [hi0]; rcases hp with rfl | rfl
        · exact .inr (.inl h)
        · exact .inr (.inr h)
      · exact .inl h

theorem hasDup_iff (l : List Int) : hasDup l = false ↔ l.Nodup := by
  induction l with
  | nil => simp [hasDup]
  | cons x l ih => simp [hasDup, ih]

/-- Effect of `add_int_variable`. -/
theorem addInt_effect (d : List Int) (n : Option Name) (w : World) (hi : NameInv w.model.vars) :
    (∃ e, addIntVariable d n w = (w, .error e)) ∨
    (∃ nm, addIntVariable d n w =
        ({ w with model := { w.model with vars := w.model.vars ++ [(nm, ⟨some d, none⟩)] } }, .ok (.var nm)) ∧
      d.Nodup ∧ NameInv (w.model.vars ++ [(nm, ⟨some d, none⟩)]) ∧
      (∀ x, n = some x → nm = x)) := by
  unfold addIntVariable
  by_cases hd : hasDup d = true
  · left; simp [hd, Api.raise]
  · simp only [hd, Bool.false_eq_true, if_false, bind, Api.bind]
    cases hg : getName "_v" n w with
    | mk w' r =>
      have hw := (getName_spec hg).1; subst hw
      cases r with
      | error e => left; exact ⟨e, rfl⟩
      | ok nm =>
        right
        obtain ⟨h1, h2⟩ := nameInv_add (.inl rfl) hg hi ⟨some d, none⟩
        refine ⟨nm, ?_, (hasDup_iff d).1 (by simpa using hd), by rw [← h2]; exact h1, ?_⟩
        · simp only [Api.model, Api.setModel, pure, Api.pure, h2]
        · intro x hx
          rcases (getName_spec hg).2 nm rfl with ⟨h, _⟩ | ⟨h, _⟩
          · rw [h] at hx; cases hx
          · rw [h] at hx; cases hx; rfl

/-- Effect of `add_parameter`. -/
theorem addParam_effect (v : Int) (n : Option Name) (w : World) (hi : NameInv w.model.vars) :
    (∃ e, addParameter v n w = (w, .error e)) ∨
    (∃ nm, addParameter v n w =
        (⟨{ w.model with vars := w.model.vars ++ [(nm, ⟨none, some w.heap.nparams⟩)] },
          (w.heap.newParam v).2⟩, .ok (.param w.heap.nparams nm)) ∧
      NameInv (w.model.vars ++ [(nm, ⟨none, some w.heap.nparams⟩)]) ∧
      (n = none → nm = "_p" ++ toString w.model.vars.length)) := by
  unfold addParameter
  simp only [bind, Api.bind]
  cases hg : getName "_p" n w with
  | mk w' r =>
    have hw := (getName_spec hg).1; subst hw
    cases r with
    | error e => left; exact ⟨e, rfl⟩
    | ok nm =>
      right
      obtain ⟨h1, h2⟩ := nameInv_add (.inr rfl) hg hi ⟨none, some w'.heap.nparams⟩
      refine ⟨nm, ?_, by rw [← h2]; exact h1, ?_⟩
      · simp only [Heap.newParam, h2]
      · intro hn
        rcases (getName_spec hg).2 nm rfl with ⟨_, h⟩ | ⟨h, _⟩
        · exact h
        · rw [hn] at h; cases h

theorem Api.bind_apply {α β} (f : Api α) (g : α → Api β) (w : World) : (f >>= g) w =
    match f w with
    | (w', .ok a) => g a w'
    | (w', .error e) => (w', .error e) := rfl

/-- Effect of `add_constraint` on a constraint object. -/
theorem addCon_effect (c : Constraint) (w : World) :
    addConstraint (.constraint c) w =
      if c.vars = [] then
        match c.evaluate w.heap [] with
        | .error e => (w, .error e)
        | .ok v => if v = 0 then ({ w with model := { w.model with solvable := false, constraints := w.model.constraints ++ [c] } }, .ok ())
                   else (w, .ok ())
      else if ∃ x ∈ c.vars, w.model.vars.get? x = none then (w, .error .valueError)
      else ({ w with model := { w.model with constraints := w.model.constraints ++ [c] } }, .ok ()) := by
  unfold addConstraint
  rw [Api.bind_apply]
  simp only [toConstraint, pure, Api.pure]
  by_cases hv : c.vars = []
  · simp only [hv, List.isEmpty_nil, if_true, Api.bind_apply]
    cases c.evaluate w.heap [] with
    | error e => rfl
    | ok v =>
      by_cases h0 : v = 0
      · subst h0; simp [truthy, Api.setModel, Api.bind_apply, Api.model]
      · have : truthy v = true := by simp [truthy, h0]
        simp [this, h0]; rfl
  · have : c.vars.isEmpty = false := by simpa using hv
    simp only [this, Bool.false_eq_true, if_false, hv, Api.bind_apply, Api.model]
    have hany : (c.vars.any fun x => !w.model.vars.has x) = decide (∃ x ∈ c.vars, w.model.vars.get? x = none) := by
      rw [Bool.eq_iff_iff]
      simp [Dict.has_eq_false_iff]
    rw [hany]
    by_cases hx : ∃ x ∈ c.vars, w.model.vars.get? x = none
    · rw [if_pos hx]; simp only [hx, decide_true, if_true, Api.raise]
    · rw [if_neg hx]; simp only [hx, decide_false, Bool.false_eq_true, if_false, Api.setModel]

theorem addCon_bool (b : Bool) (w : World) : addConstraint (.bool b) w =
    addConstraint (.constraint ⟨w.heap.ncons, .const b⟩) { w with heap := (w.heap.newConstraint (.const b)).2 } := rfl

theorem addCon_expr (e : Expr) (w : World) : addConstraint (.expr e) w =
    addConstraint (.constraint ⟨w.heap.ncons, .expr e⟩) { w with heap := (w.heap.newConstraint (.expr e)).2 } := rfl

theorem addAllDiff_eq (ns : List Name) (w : World) : addAllDifferent ns w =
    addConstraint (.constraint ⟨w.heap.ncons, .allDiff ns⟩) { w with heap := (w.heap.newConstraint (.allDiff ns)).2 } := rfl

theorem addCon_other (w : World) : addConstraint .other w = (w, .error .typeError) := rfl

end Satisfy
