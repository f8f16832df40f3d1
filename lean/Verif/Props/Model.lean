import Verif.Lemmas.Model
import Verif.SpecCompile
/-!
# Properties of names, constraints and model building: C07, C09 - C13
-/

namespace Satisfy.Props
open Satisfy

/-! ## C09 -/

/-- `σ'` binds everything `σ` binds, to the same values. -/
def Extends (σ σ' : Subst) : Prop := ∀ x v, σ.get? x = some v → σ'.get? x = some v

/-- No early rejection. -/
theorem C09_not_early (h : Heap) (c : Constraint) (σ : Subst) (x : Name) (hx : x ∈ c.vars) (hm : σ.get? x = none) :
    c.unsatisfied h σ = .ok false := unsat_of_missing hx hm

/-- Once everything is bound the verdict is that of `evaluate` (and an exception of `evaluate` is passed on). -/
theorem C09_verdict (h : Heap) (c : Constraint) (σ : Subst) (hb : ∀ x ∈ c.vars, σ.get? x ≠ none) :
    (∀ v, c.evaluate h σ = .ok v → c.unsatisfied h σ = .ok (decide (v = 0))) ∧
    (∀ e, c.evaluate h σ = .error e → c.unsatisfied h σ = .error e) := by
  rw [unsat_of_bound hb]
  constructor
  · intro v hv; rw [hv]; simp [truthy]; by_cases h : v = 0 <;> simp [h]
  · intro e he; rw [he]; rfl

/-- … and it is final. -/
theorem C09_stable (h : Heap) (c : Constraint) (hf : FnOk h c) (σ σ' : Subst) (hext : Extends σ σ')
    (hb : ∀ x ∈ c.vars, σ.get? x ≠ none) : c.unsatisfied h σ' = c.unsatisfied h σ := by
  have hs : ∀ x ∈ c.vars, σ'.get? x = σ.get? x := by
    intro x hx
    cases hg : σ.get? x with
    | none => exact absurd hg (hb x hx)
    | some v => exact hext x v hg
  rw [unsat_of_bound hb, unsat_of_bound (fun x hx => by rw [hs x hx]; exact hb x hx), evaluate_congr hf hs]

/-- Every constraint object obtained through the API satisfies the hypothesis `FnOk` of `C09_stable`:
new objects have no compiled function, and `compile` stores the function of the constraint's own
expression. -/
theorem C09_new_ok (h : Heap) (k : CKind) : FnOk (h.newConstraint k).2 (h.newConstraint k).1 := by
  intro e f _ hf; simp [Heap.newConstraint] at hf

theorem C09_compile_ok (h : Heap) (c c' : Constraint) (hc : c'.id = c.id → c'.kind = c.kind) (h' : FnOk h c') :
    FnOk (c.compile h) c' := by
  intro e f hk hf
  unfold Constraint.compile at hf
  split at hf
  · rename_i e' he
    simp only at hf
    split at hf
    · rename_i hid
      cases hf
      rw [hc hid, he] at hk
      cases hk
      exact ⟨h.params, rfl⟩
    · exact h' e f hk hf
  · exact h' e f hk hf

-- non-vacuity: x + y == 3 compiled, verdict final at {x: 1, y: 1}
example : let h0 : Heap := ⟨fun _ => 0, fun _ => none, 0, 0⟩
    let c : Constraint := ⟨0, .expr (.bin .eq (.bin .add (.var "x") (.var "y")) (.const 3))⟩
    FnOk (c.compile h0) c ∧ c.unsatisfied (c.compile h0) [("x", 1)] = .ok false ∧
    c.unsatisfied (c.compile h0) [("x", 1), ("y", 1)] = .ok true ∧
    c.unsatisfied (c.compile h0) [("x", 1), ("y", 1), ("z", 7)] = .ok true := by
  refine ⟨C09_compile_ok _ _ _ (fun _ => rfl) (by intro e f _ hf; simp at hf), ?_, ?_, ?_⟩ <;> decide

/-! ## C10 -/

theorem C10_missing (h : Heap) (i : Nat) (names : List Name) (σ : Subst) (x : Name) (hx : x ∈ names)
    (hm : σ.get? x = none) : (⟨i, .allDiff names⟩ : Constraint).evaluate h σ = .error .keyError := by
  have : lookupAll σ (dedup names) = .error .keyError := lookupAll_error.1 ⟨x, by simpa using hx, hm⟩
  simp [Constraint.evaluate, this]

theorem C10_all_different (h : Heap) (i : Nat) (names : List Name) (σ : Subst) (hb : ∀ x ∈ names, σ.get? x ≠ none) :
    ((∀ x ∈ names, ∀ y ∈ names, x ≠ y → σ.get? x ≠ σ.get? y) →
      (⟨i, .allDiff names⟩ : Constraint).evaluate h σ = .ok 1) ∧
    ((∃ x ∈ names, ∃ y ∈ names, x ≠ y ∧ σ.get? x = σ.get? y) →
      (⟨i, .allDiff names⟩ : Constraint).evaluate h σ = .ok 0) := by
  obtain ⟨vs, hvs⟩ := lookupAll_total (σ := σ) (l := dedup names) (fun x hx => hb x (by simpa using hx))
  have hm := lookupAll_ok.1 hvs
  have hlen : vs.length = (dedup names).length := by
    have := congrArg List.length hm; simpa using this.symm
  have key : vs.Nodup ↔ ∀ x ∈ names, ∀ y ∈ names, x ≠ y → σ.get? x ≠ σ.get? y := by
    have h1 : vs.Nodup ↔ (vs.map some).Nodup := by
      rw [List.nodup_map_iff (fun _ _ h => Option.some.inj h)]
    rw [h1, ← hm]
    have h2 := List.nodup_map_iff_inj_on (f := σ.get?) (nodup_dedup names)
    rw [h2]
    constructor
    · intro H x hx y hy hne he; exact hne (H x (by simpa using hx) y (by simpa using hy) he)
    · intro H x hx y hy he
      by_contra hne
      exact H x (by simpa using hx) y (by simpa using hy) hne he
  have hev : (⟨i, .allDiff names⟩ : Constraint).evaluate h σ = .ok (ofBool (decide vs.Nodup)) := by
    simp only [Constraint.evaluate, hvs, ok_bind, pure_res]
    congr 2
    rw [decide_eq_decide, ← hlen, length_dedup_eq]
  rw [hev]
  constructor
  · intro H; rw [← key] at H; simp [H, ofBool]
  · rintro ⟨x, hx, y, hy, hne, he⟩
    have : ¬ vs.Nodup := fun H => key.1 H x hx y hy hne he
    simp [this, ofBool]

-- a name given twice counts once
example (h : Heap) : (⟨0, .allDiff ["x", "y", "x"]⟩ : Constraint).evaluate h [("x", 1), ("y", 2)] = .ok 1 :=
  (C10_all_different h 0 _ _ (by decide)).1 (by decide)

/-! ## C11 -/

/-- A call that raises leaves the model unchanged. -/
theorem C11_raise (c : Call) (w : World) (hi : NameInv w.model.vars) (e : Err) (h : (c.run w).2 = .error e) :
    (c.run w).1.model = w.model := by
  have hcon : ∀ (k : Constraint) (w' : World), w'.model = w.model →
      (addConstraint (.constraint k) w').2 = .error e → (addConstraint (.constraint k) w').1.model = w.model := by
    intro k w' hw' h
    rw [addCon_effect] at h ⊢
    split at h
    · rename_i hv
      simp only [hv, if_true]
      split at h
      · exact hw'
      · split at h <;> simp at h
    · rename_i hv
      simp only [hv, if_false]
      split at h
      · rename_i hx; rw [if_pos hx]; exact hw'
      · simp at h
  have hmap : ∀ {α} (f : Api α), ((do let _ ← f : Api Unit) w).1 = (f w).1 ∧
      (∀ e, ((do let _ ← f : Api Unit) w).2 = .error e → (f w).2 = .error e) := by
    intro α f
    simp only [Api.bind_apply]
    cases hf : f w with
    | mk w' r => cases r <;> simp [pure, Api.pure]
  cases c with
  | addInt d n =>
    simp only [Call.run] at h ⊢
    rw [(hmap _).1]; have h := (hmap _).2 e h
    rcases addInt_effect d n w hi with ⟨e', he⟩ | ⟨nm, he, _⟩ <;> rw [he] at h ⊢; simp at h
  | addBool n =>
    simp only [Call.run] at h ⊢
    rw [(hmap _).1]; have h := (hmap _).2 e h
    simp only [addBoolVariable] at h ⊢
    rcases addInt_effect [0, 1] n w hi with ⟨e', he⟩ | ⟨nm, he, _⟩ <;> rw [he] at h ⊢; simp at h
  | addParam v n =>
    simp only [Call.run] at h ⊢
    rw [(hmap _).1]; have h := (hmap _).2 e h
    rcases addParam_effect v n w hi with ⟨e', he⟩ | ⟨nm, he, _⟩ <;> rw [he] at h ⊢; simp at h
  | addCon a =>
    simp only [Call.run] at h ⊢
    cases a with
    | bool b => rw [addCon_bool] at h ⊢; exact hcon _ { w with heap := _ } rfl h
    | expr b => rw [addCon_expr] at h ⊢; exact hcon _ { w with heap := _ } rfl h
    | constraint k => exact hcon k w rfl h
    | other => rfl
  | addAllDiff ns => simp only [Call.run] at h ⊢; rw [addAllDiff_eq] at h ⊢; exact hcon _ { w with heap := _ } rfl h
  | setSolvable b => rfl
  | setParam i v => rfl

/-- What one call can do to the table of variables: nothing, or append one entry under a new name. -/
theorem C11_call (c : Call) (w : World) (hi : NameInv w.model.vars) :
    NameInv (c.run w).1.model.vars ∧
    ((c.run w).1.model.vars = w.model.vars ∨
      ∃ nm info, nm ∉ w.model.vars.keys ∧ (∀ d, info.domain = some d → d.Nodup) ∧
        (c.run w).1.model.vars = w.model.vars ++ [(nm, info)]) := by
  have hcon : ∀ (k : Constraint) (w' : World), w'.model = w.model →
      (addConstraint (.constraint k) w').1.model.vars = w.model.vars := by
    intro k w' hw'
    rw [addCon_effect]
    split
    · split
      · rw [hw']
      · split
        · simp [hw']
        · rw [hw']
    · split
      · rw [hw']
      · simp [hw']
  have hmap : ∀ {α} (f : Api α), ((do let _ ← f : Api Unit) w).1 = (f w).1 := by
    intro α f
    simp only [Api.bind_apply]
    cases hf : f w with
    | mk w' r => cases r <;> simp [pure, Api.pure]
  have same : ∀ w' : World, w'.model.vars = w.model.vars → NameInv w'.model.vars ∧ (w'.model.vars = w.model.vars ∨
      ∃ nm info, nm ∉ w.model.vars.keys ∧ (∀ d, info.domain = some d → d.Nodup) ∧
        w'.model.vars = w.model.vars ++ [(nm, info)]) := fun w' h => ⟨by rw [h]; exact hi, .inl h⟩
  have fresh : ∀ (nm : Name) (info : VarInfo), NameInv (w.model.vars ++ [(nm, info)]) → nm ∉ w.model.vars.keys := by
    intro nm info h
    have := h.1
    rw [Dict.keys_append, List.nodup_append] at this
    intro hm
    exact this.2.2 nm hm nm (by simp [Dict.keys]) rfl
  have int : ∀ d n, NameInv (addIntVariable d n w).1.model.vars ∧
      ((addIntVariable d n w).1.model.vars = w.model.vars ∨
      ∃ nm info, nm ∉ w.model.vars.keys ∧ (∀ d, info.domain = some d → d.Nodup) ∧
        (addIntVariable d n w).1.model.vars = w.model.vars ++ [(nm, info)]) := by
    intro d n
    rcases addInt_effect d n w hi with ⟨e', he⟩ | ⟨nm, he, hd, hn, _⟩ <;> rw [he]
    · exact same w rfl
    · exact ⟨hn, .inr ⟨nm, _, fresh _ _ hn, by rintro d' h; simp at h; rw [← h]; exact hd, rfl⟩⟩
  cases c with
  | addInt d n => simp only [Call.run]; rw [hmap]; exact int d n
  | addBool n => simp only [Call.run]; rw [hmap]; exact int [0, 1] n
  | addParam v n =>
    simp only [Call.run]; rw [hmap]
    rcases addParam_effect v n w hi with ⟨e', he⟩ | ⟨nm, he, hn, _⟩ <;> rw [he]
    · exact same w rfl
    · exact ⟨hn, .inr ⟨nm, _, fresh _ _ hn, by simp, rfl⟩⟩
  | addCon a =>
    simp only [Call.run]
    apply same
    cases a with
    | bool b => rw [addCon_bool]; exact hcon _ { w with heap := _ } rfl
    | expr b => rw [addCon_expr]; exact hcon _ { w with heap := _ } rfl
    | constraint k => exact hcon k w rfl
    | other => rfl
  | addAllDiff ns =>
    simp only [Call.run]; apply same; rw [addAllDiff_eq]; exact hcon _ { w with heap := _ } rfl
  | setSolvable b => exact same w rfl
  | setParam i v => exact same _ rfl

theorem runCalls_inv (cs : List Call) (w : World) (hi : NameInv w.model.vars) : NameInv (runCalls cs w).model.vars := by
  induction cs generalizing w with
  | nil => exact hi
  | cons c cs ih => exact ih _ (C11_call c w hi).1

theorem emptyInv : NameInv Model.empty.vars := ⟨by simp [Model.empty, Dict.keys], by simp [Model.empty, Dict.keys]⟩

/-- C11, for every history of calls on a fresh model (whatever the heap contains): names are distinct,
domains are duplicate-free, and any continuation only appends. -/
theorem C11_history (h : Heap) (cs cs' : List Call) :
    let m := (runCalls cs ⟨.empty, h⟩).model
    m.vars.keys.Nodup ∧
    (∀ x info d, (x, info) ∈ m.vars → info.domain = some d → d.Nodup) ∧
    ∃ later, (runCalls (cs ++ cs') ⟨.empty, h⟩).model.vars = m.vars ++ later := by
  have happ : ∀ cs cs' w, runCalls (cs ++ cs') w = runCalls cs' (runCalls cs w) := by
    intro cs cs'
    induction cs with
    | nil => intro w; rfl
    | cons c cs ih => intro w; exact ih _
  have hdom : ∀ cs (w : World), NameInv w.model.vars →
      (∀ x info d, (x, info) ∈ w.model.vars → info.domain = some d → d.Nodup) →
      (∀ x info d, (x, info) ∈ (runCalls cs w).model.vars → info.domain = some d → d.Nodup) := by
    intro cs
    induction cs with
    | nil => intro w _ h; exact h
    | cons c cs ih =>
      intro w hi h
      have hc := C11_call c w hi
      apply ih _ hc.1
      rcases hc.2 with h' | ⟨nm, info, _, hd, h'⟩
      · rw [h']; exact h
      · rw [h']
        intro x i d hx
        rcases List.mem_append.1 hx with hx | hx
        · exact h x i d hx
        · simp at hx; rw [hx.2]; exact hd d
  have hlater : ∀ cs (w : World), NameInv w.model.vars → ∃ later, (runCalls cs w).model.vars = w.model.vars ++ later := by
    intro cs
    induction cs with
    | nil => intro w _; exact ⟨[], by simp [runCalls]⟩
    | cons c cs ih =>
      intro w hi
      have hc := C11_call c w hi
      obtain ⟨l, hl⟩ := ih _ hc.1
      rcases hc.2 with h' | ⟨nm, info, _, _, h'⟩
      · exact ⟨l, by rw [runCalls, hl, h']⟩
      · exact ⟨(nm, info) :: l, by rw [runCalls, hl, h']; simp⟩
  have h0 := runCalls_inv cs ⟨.empty, h⟩ emptyInv
  refine ⟨h0.1, hdom cs _ emptyInv (by simp [Model.empty]), ?_⟩
  obtain ⟨l, hl⟩ := hlater cs' _ h0
  exact ⟨l, by rw [happ, hl]⟩

/-- Names are never reused: asking for a taken name raises `ValueError`. -/
theorem C11_taken (d : List Int) (x : Name) (w : World) (hd : d.Nodup) (hx : x ∈ w.model.vars.keys) :
    addIntVariable d (some x) w = (w, .error .valueError) := by
  have hd' : hasDup d = false := (hasDup_iff d).2 hd
  have hh : w.model.vars.has x = true := (Dict.has_iff _ _).2 hx
  by_cases hc : checkName x = true
  · simp [addIntVariable, hd', getName, Api.bind_apply, Api.model, hc, hh, Api.raise]
  · simp [addIntVariable, hd', getName, Api.bind_apply, Api.model, hc, Api.raise]

-- a history with auto-generated names, a parameter, and failing calls
example : (runCalls [.addBool none, .addParam 5 none, .addInt [1, 1] (some "x"), .addInt [1, 2] (some "x"),
      .addBool (some "x"), .addBool (some "_v4"), .addBool none] ⟨.empty, ⟨fun _ => 0, fun _ => none, 0, 0⟩⟩).model.vars.keys =
    ["_v0", "_p1", "x", "_v3"] := by decide

/-! ## C12 -/

/-- The call hands the model a constraint without variables that is false at that moment. -/
inductive AddsFalse : World → Call → Prop
  | bool (w) : AddsFalse w (.addCon (.bool false))
  | expr {w e} : e.vars = [] → e.eval w.heap.params [] = .ok 0 → AddsFalse w (.addCon (.expr e))
  | object {w c} : c.vars = [] → c.evaluate w.heap [] = .ok 0 → AddsFalse w (.addCon (.constraint c))

theorem C12_call (c : Call) (w : World) (hi : NameInv w.model.vars) :
    (c.run w).1.model.solvable = false ↔ w.model.solvable = false ∨ AddsFalse w c := by
  have hmap : ∀ {α} (f : Api α), ((do let _ ← f : Api Unit) w).1 = (f w).1 := by
    intro α f
    simp only [Api.bind_apply]
    cases hf : f w with
    | mk w' r => cases r <;> simp [pure, Api.pure]
  have hcon : ∀ (k : Constraint) (w' : World), w'.model = w.model →
      ((addConstraint (.constraint k) w').1.model.solvable = false ↔
        w.model.solvable = false ∨ (k.vars = [] ∧ k.evaluate w'.heap [] = .ok 0)) := by
    intro k w' hw'
    rw [addCon_effect]
    split
    · rename_i hv
      simp only [hv, true_and]
      split
      · rename_i e he; simp [hw', he]
      · rename_i v hev
        split
        · rename_i h0; subst h0; simp [hev]
        · rename_i h0; simp [hw', hev, h0]
    · rename_i hv
      simp only [hv, false_and, or_false]
      split <;> simp [hw']
  cases c with
  | addInt d n =>
    simp only [Call.run]; rw [hmap]
    have : ¬ AddsFalse w (.addInt d n) := by intro h; cases h
    rcases addInt_effect d n w hi with ⟨e', he⟩ | ⟨nm, he, _⟩ <;> rw [he] <;> simp [this]
  | addBool n =>
    simp only [Call.run, addBoolVariable]; rw [hmap]
    have : ¬ AddsFalse w (.addBool n) := by intro h; cases h
    rcases addInt_effect [0, 1] n w hi with ⟨e', he⟩ | ⟨nm, he, _⟩ <;> rw [he] <;> simp [this]
  | addParam v n =>
    simp only [Call.run]; rw [hmap]
    have : ¬ AddsFalse w (.addParam v n) := by intro h; cases h
    rcases addParam_effect v n w hi with ⟨e', he⟩ | ⟨nm, he, _⟩ <;> rw [he] <;> simp [this]
  | addCon a =>
    simp only [Call.run]
    cases a with
    | bool b =>
      rw [addCon_bool, hcon _ _ (by rfl)]
      cases b with
      | false => simp [Constraint.vars, CKind.vars, Constraint.evaluate, ofBool]; exact .inr (.bool w)
      | true =>
        have : ¬ AddsFalse w (.addCon (.bool true)) := by intro h; cases h
        simp [Constraint.evaluate, ofBool, this]
    | expr e =>
      rw [addCon_expr, hcon _ _ (by rfl)]
      have : (⟨w.heap.ncons, CKind.expr e⟩ : Constraint).evaluate (w.heap.newConstraint (.expr e)).2 [] =
          e.eval w.heap.params [] := by simp [Constraint.evaluate, Heap.newConstraint]
      simp only [this]
      constructor
      · rintro (h | ⟨h1, h2⟩)
        · exact .inl h
        · exact .inr (.expr h1 h2)
      · rintro (h | h)
        · exact .inl h
        · cases h with | expr h1 h2 => exact .inr ⟨h1, h2⟩
    | constraint k =>
      rw [hcon k w rfl]
      constructor
      · rintro (h | ⟨h1, h2⟩)
        · exact .inl h
        · exact .inr (.object h1 h2)
      · rintro (h | h)
        · exact .inl h
        · cases h with | object h1 h2 => exact .inr ⟨h1, h2⟩
    | other =>
      have : ¬ AddsFalse w (.addCon .other) := by intro h; cases h
      simp [addCon_other, this]
  | addAllDiff ns =>
    simp only [Call.run]
    rw [addAllDiff_eq, hcon _ _ (by rfl)]
    have h1 : ¬ AddsFalse w (.addAllDiff ns) := by intro h; cases h
    simp only [h1, or_false, or_iff_left_iff_imp, and_imp]
    intro h
    have hd : dedup ns = [] := h
    have : (⟨w.heap.ncons, CKind.allDiff ns⟩ : Constraint).evaluate (w.heap.newConstraint (.allDiff ns)).2 [] = .ok 1 := by
      simp only [Constraint.evaluate, hd]; rfl
    rw [this]; simp
  | setSolvable b =>
    have : ¬ AddsFalse w (.setSolvable b) := by intro h; cases h
    simp [Call.run, Satisfy.setSolvable, pure, Api.pure, this]
  | setParam i v =>
    have : ¬ AddsFalse w (.setParam i v) := by intro h; cases h
    simp [Call.run, this]

/-- C12, for every history. -/
theorem C12_solvable (h : Heap) (cs : List Call) :
    (runCalls cs ⟨.empty, h⟩).model.solvable = false ↔
      ∃ pre c post, cs = pre ++ c :: post ∧ AddsFalse (runCalls pre ⟨.empty, h⟩) c := by
  have gen : ∀ cs (w : World), NameInv w.model.vars → ((runCalls cs w).model.solvable = false ↔
      w.model.solvable = false ∨ ∃ pre c post, cs = pre ++ c :: post ∧ AddsFalse (runCalls pre w) c) := by
    intro cs
    induction cs with
    | nil => intro w _; simp [runCalls]
    | cons c cs ih =>
      intro w hi
      rw [runCalls, ih _ (C11_call c w hi).1, C12_call c w hi]
      constructor
      · rintro ((h | h) | ⟨pre, c', post, rfl, h⟩)
        · exact .inl h
        · exact .inr ⟨[], c, cs, rfl, h⟩
        · exact .inr ⟨c :: pre, c', post, rfl, h⟩
      · rintro (h | ⟨pre, c', post, heq, h⟩)
        · exact .inl (.inl h)
        · cases pre with
          | nil => simp at heq; obtain ⟨rfl, rfl⟩ := heq; exact .inl (.inr h)
          | cons p pre =>
            simp at heq; obtain ⟨rfl, rfl⟩ := heq
            exact .inr ⟨pre, c', post, rfl, h⟩
  have := gen cs ⟨.empty, h⟩ emptyInv
  simpa [Model.empty] using this

/-- `False` is final. -/
theorem C12_final (c : Call) (w : World) (hi : NameInv w.model.vars) (h : w.model.solvable = false) :
    (c.run w).1.model.solvable = false := (C12_call c w hi).2 (.inl h)

/-- While the model is solvable, each stored constraint mentions a variable, and all its variables are
names of the model. -/
theorem C12_stored (h : Heap) (cs : List Call) :
    let m := (runCalls cs ⟨.empty, h⟩).model
    m.solvable = true → ∀ c ∈ m.constraints, c.vars ≠ [] ∧ ∀ x ∈ c.vars, x ∈ m.vars.keys := by
  have hmap : ∀ {α} (f : Api α) (w : World), ((do let _ ← f : Api Unit) w).1 = (f w).1 := by
    intro α f w
    simp only [Api.bind_apply]
    cases hf : f w with
    | mk w' r => cases r <;> simp [pure, Api.pure]
  let P : Model → Prop := fun m => m.solvable = true → ∀ c ∈ m.constraints, c.vars ≠ [] ∧ ∀ x ∈ c.vars, x ∈ m.vars.keys
  have grow : ∀ (m : Model) (vs : Dict VarInfo), P m → P { m with vars := m.vars ++ vs } := by
    intro m vs hP hs c hc
    refine ⟨(hP hs c hc).1, fun x hx => ?_⟩
    rw [Dict.keys_append]; exact List.mem_append_left _ ((hP hs c hc).2 x hx)
  have hcon : ∀ (k : Constraint) (w : World), P w.model → P (addConstraint (.constraint k) w).1.model := by
    intro k w hP
    rw [addCon_effect]
    split
    · split
      · exact hP
      · split
        · intro hs; simp at hs
        · exact hP
    · rename_i hv
      split
      · exact hP
      · rename_i hx
        intro hs c hc
        rcases List.mem_append.1 hc with hc | hc
        · exact hP hs c hc
        · simp at hc; subst hc
          refine ⟨hv, fun x hxc => ?_⟩
          by_contra hn
          exact hx ⟨x, hxc, (Dict.get?_eq_none_iff _ _).2 hn⟩
  have step : ∀ (c : Call) (w : World), NameInv w.model.vars → P w.model → P (c.run w).1.model := by
    intro c w hi hP
    have int : ∀ d n, P (addIntVariable d n w).1.model := by
      intro d n
      rcases addInt_effect d n w hi with ⟨e', he⟩ | ⟨nm, he, _⟩ <;> rw [he]
      · exact hP
      · exact grow _ _ hP
    cases c with
    | addInt d n => simp only [Call.run]; rw [hmap]; exact int d n
    | addBool n => simp only [Call.run]; rw [hmap]; exact int [0, 1] n
    | addParam v n =>
      simp only [Call.run]; rw [hmap]
      rcases addParam_effect v n w hi with ⟨e', he⟩ | ⟨nm, he, _⟩ <;> rw [he]
      · exact hP
      · exact grow _ _ hP
    | addCon a =>
      simp only [Call.run]
      cases a with
      | bool b => rw [addCon_bool]; exact hcon _ { w with heap := _ } hP
      | expr b => rw [addCon_expr]; exact hcon _ { w with heap := _ } hP
      | constraint k => exact hcon k w hP
      | other => exact hP
    | addAllDiff ns => simp only [Call.run]; rw [addAllDiff_eq]; exact hcon _ { w with heap := _ } hP
    | setSolvable b => exact hP
    | setParam i v => exact hP
  have gen : ∀ cs (w : World), NameInv w.model.vars → P w.model → P (runCalls cs w).model := by
    intro cs
    induction cs with
    | nil => intro w _ h; exact h
    | cons c cs ih => intro w hi hP; exact ih _ (C11_call c w hi).1 (step c w hi hP)
  exact gen cs _ emptyInv (by intro _ c hc; simp [Model.empty] at hc)

example (h : Heap) : (runCalls [.addBool (some "x"), .addCon (.expr (.bin .lt (.const 2) (.const 1)))] ⟨.empty, h⟩).model.solvable
    = false :=
  (C12_solvable h _).2 ⟨[.addBool (some "x")], _, [], rfl, .expr (by rfl) (by rfl)⟩

/-! ## C13 (false of the code) -/

/-- `set_solvable` never changes what `solvable()` reports. -/
theorem C13_no_effect (b : Bool) (w : World) : (setSolvable b w).1.model.solvable = w.model.solvable := rfl

theorem C13_refuted : ¬ (∀ (w : World) (b : Bool), (setSolvable b w).1.model.solvable = b) := by
  intro h
  have := h ⟨.empty, ⟨fun _ => 0, fun _ => none, 0, 0⟩⟩ false
  rw [C13_no_effect] at this
  simp [Model.empty] at this

/-- What remains: it reports `b` exactly when it did so already. -/
theorem C13_partial (w : World) (b : Bool) : (setSolvable b w).1.model.solvable = b ↔ w.model.solvable = b := Iff.rfl

/-! ## C07 -/

/-- The names `add_int_variable` accepts. -/
theorem C07_accepts (x : Name) (w : World) (hx : w.model.vars.get? x = none) :
    (addIntVariable [0, 1] (some x) w).2 = if checkName x then .ok (.var x) else .error .valueError := by
  have hh : w.model.vars.has x = false := (Dict.has_eq_false_iff _ _).2 hx
  by_cases hc : checkName x = true
  · simp [addIntVariable, show hasDup [0, 1] = false from rfl, getName, Api.bind_apply, Api.model, hc, hh, pure,
      Api.pure, Api.setModel]
  · simp [addIntVariable, show hasDup [0, 1] = false from rfl, getName, Api.bind_apply, Api.model, hc, Api.raise]

/-- A variable called `in` (any keyword) is accepted, but a compiled constraint over it raises `TypeError`. -/
theorem C07_refuted : checkName "in" = true ∧
    ∀ h : Heap, let c : Constraint := ⟨0, .expr (.bin .ge (.var "in") (.const 0))⟩
      c.evaluate h [("in", 1)] = (h.fns 0).elim (.ok 1) (fun f => f.call [("in", 1)]) ∧
      c.evaluate (c.compile h) [("in", 1)] = .error .typeError := by
  refine ⟨by decide, fun h => ⟨?_, ?_⟩⟩
  · simp only [Constraint.evaluate]; cases h.fns 0 <;> rfl
  · simp only [Constraint.evaluate, Constraint.compile, if_true]; rfl

/-- … for every expression mentioning a keyword-named variable, or one whose name ends in a newline. -/
theorem C07_refuted_general (ρ : Store) (e : Expr) (x : Name) (hx : x ∈ e.vars)
    (hk : x ∈ pyKeywords ∨ isIdent x = false) (σ : Subst) : (asFunction ρ e).call σ = .error .typeError := by
  have : e.vars.any (fun x => !isIdent x || decide (x ∈ pyKeywords) || decide (x = dummyName)) = true := by
    rw [List.any_eq_true]
    refine ⟨x, hx, ?_⟩
    rcases hk with h | h <;> simp [h]
  simp [asFunction, this, Compiled.call]

theorem C07_refuted_newline : checkName "x\n" = true ∧ isIdent "x\n" = false := by decide

theorem bad_names : ∀ x ∈ ["False", "None", "True", "and", "as", "assert", "async", "await", "break", "class", "continue",
   "def", "del", "elif", "else", "except", "finally", "for", "from", "global", "if", "import", "in",
   "is", "lambda", "nonlocal", "not", "or", "pass", "raise", "return", "try", "while", "with", "yield",
   "sum", "prod", "abs", "__dummy_kwargs"], (x ∈ pyKeywords ∨ x = "sum" ∨ x = "prod" ∨ x = "abs" ∨ x = "__dummy_kwargs") ∧
    (x.toList.head? ≠ some '_' ∨ x.toList[1]? = some '_') := by
  decide

/-- All other accepted names, and all generated ones, are fine: they satisfy the name condition of the
faithfulness theorems C05/C06. -/
theorem C07_partial (x : Name) (h : checkName x = true) (hn : x.toList.getLast? ≠ some '\n') (hk : x ∉ pyKeywords)
    (hs : x ≠ "sum" ∧ x ≠ "prod" ∧ x ≠ "abs") : NameOk x := by
  have hid : isIdent x = true := by
    unfold checkName at h
    simp only [hn, if_false] at h
    unfold isIdent
    cases hx : x.toList with
    | nil => rw [hx] at h; simp at h
    | cons c cs =>
      rw [hx] at h
      simp only [Bool.and_eq_true] at h
      simp only [h.1, Bool.true_or, Bool.true_and]
      exact h.2
  exact ⟨hid, fun hm => (bad_names x hm).1.elim hk (fun hb => by
    rcases hb with hb | hb | hb | rfl
    · tauto
    · tauto
    · tauto
    · exact absurd h (by decide))⟩

theorem isIdent_underscore (c : Char) (hc : isWord c = true) (n : Nat) :
    isIdent (String.ofList ['_', c] ++ toString n) = true := by
  simp [isIdent, hc]
  intro d h
  have := Nat.isDigit_of_mem_toDigits (by omega) (by omega) h
  simp [isWord, Char.isAlphanum, this]

theorem C07_generated (n : Nat) : NameOk ("_v" ++ toString n) ∧ NameOk ("_p" ++ toString n) := by
  refine ⟨⟨isIdent_underscore 'v' (by decide) n, ?_⟩, ⟨isIdent_underscore 'p' (by decide) n, ?_⟩⟩
  · intro hm; simpa using (bad_names _ hm).2
  · intro hm; simpa using (bad_names _ hm).2

-- non-vacuity
example : NameOk "x_1" := C07_partial "x_1" (by decide) (by decide) (by decide) (by decide)

end Satisfy.Props
