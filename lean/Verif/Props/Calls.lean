import Verif.Props.Model
import Verif.Props.Expr

/-!
# C72: what the calls that build a model do

Every call is either carried out or rejected with the exception described here; if it is rejected the model is as before.
-/

namespace Satisfy.Props
open Satisfy

/-- A name as the model wants it: a letter followed by letters, digits and underscores, perhaps with a newline at the end (which `$` allows). -/
def NameFits (x : Name) : Prop :=
  ∃ (c : Char) (cs : List Char), c.isAlpha = true ∧ (∀ d ∈ cs, d.isAlphanum = true ∨ d = '_') ∧ (x.toList = c :: cs ∨ x.toList = c :: cs ++ ['\n'])

theorem checkName_iff (x : Name) : checkName x = true ↔ NameFits x := by
  have word : ∀ cs : List Char, cs.all isWord = true ↔ ∀ d ∈ cs, d.isAlphanum = true ∨ d = '_' := by
    intro cs
    simp only [List.all_eq_true, isWord, Bool.or_eq_true, beq_iff_eq]
  have nl : ∀ {c : Char} {cs : List Char}, c.isAlpha = true → (∀ d ∈ cs, d.isAlphanum = true ∨ d = '_') → (c :: cs).getLast? ≠ some '\n' := by
    intro c cs hc hcs h
    rcases List.mem_cons.1 (List.mem_of_getLast? h) with h | h
    · rw [← h] at hc; revert hc; decide
    · rcases hcs _ h with h | h
      · revert h; decide
      · revert h; decide
  unfold checkName
  constructor
  · intro h
    by_cases hl : x.toList.getLast? = some '\n'
    · simp only [hl, if_true] at h
      obtain ⟨ys, hys⟩ := List.getLast?_eq_some_iff.1 hl
      rw [hys, List.dropLast_concat] at h
      match ys, h with
      | c :: cs, h =>
        simp only [Bool.and_eq_true] at h
        exact ⟨c, cs, h.1, (word cs).1 h.2, .inr hys⟩
    · simp only [hl, if_false] at h
      match hx : x.toList, h with
      | c :: cs, h =>
        simp only [Bool.and_eq_true] at h
        exact ⟨c, cs, h.1, (word cs).1 h.2, .inl hx⟩
  · rintro ⟨c, cs, hc, hcs, hx | hx⟩
    · have := nl hc hcs
      rw [← hx] at this
      simp only [this, if_false]
      rw [hx]
      simp [hc, (word cs).2 hcs]
    · have h1 : x.toList.getLast? = some '\n' := by rw [hx]; exact List.getLast?_concat
      have h2 : x.toList.dropLast = c :: cs := by rw [hx, List.dropLast_concat]
      simp only [h1, if_true, h2]
      simp [hc, (word cs).2 hcs]

/-! ## variables and parameters -/

/-- The name that was asked for is not to be had. -/
def NameRefused (m : Model) (n : Option Name) : Prop := ∃ x, n = some x ∧ (¬ NameFits x ∨ x ∈ m.vars.keys)

/-- The name the new variable gets: the one that was asked for, or a prefix and the number of variables so far. -/
def givenName (pre : String) (m : Model) (n : Option Name) : Name := n.getD (pre ++ toString m.vars.length)

theorem getName_exact (pre : String) (n : Option Name) (w : World) :
    (NameRefused w.model n → getName pre n w = (w, .error .valueError)) ∧ (¬ NameRefused w.model n → getName pre n w = (w, .ok (givenName pre w.model n))) := by
  cases n with
  | none => exact ⟨fun h => (by obtain ⟨x, h, _⟩ := h; cases h), fun _ => rfl⟩
  | some x =>
    have hr : NameRefused w.model (some x) ↔ checkName x = false ∨ w.model.vars.has x = true := by
      rw [Dict.has_iff, ← Bool.not_eq_true, checkName_iff]
      exact ⟨by rintro ⟨y, h, h'⟩; injection h with h; subst h; exact h', fun h => ⟨x, rfl, h⟩⟩
    rw [hr]
    constructor
    · intro h
      rcases h with h | h
      · simp [getName, Api.bind_apply, Api.model, h, Api.raise]
      · cases hc : checkName x <;> simp [getName, Api.bind_apply, Api.model, h, hc, Api.raise]
    · intro h
      simp only [not_or, Bool.not_eq_false, Bool.not_eq_true] at h
      simp [getName, Api.bind_apply, Api.model, h.1, h.2, givenName, pure, Api.pure]

/-- A variable is refused with `ValueError` if its domain has a value twice or its name is not to be had. Otherwise it is added at the end, with this
domain, and the call returns it; nothing else changes. -/
theorem C72_variable (d : List Int) (n : Option Name) (w : World) (hi : NameInv w.model.vars) :
    (¬ d.Nodup ∨ NameRefused w.model n → addIntVariable d n w = (w, .error .valueError)) ∧
    (d.Nodup → ¬ NameRefused w.model n → addIntVariable d n w =
      ({ w with model := { w.model with vars := w.model.vars ++ [(givenName "_v" w.model n, ⟨some d, none⟩)] } }, .ok (.var (givenName "_v" w.model n)))) := by
  obtain ⟨h1, h2⟩ := getName_exact "_v" n w
  constructor
  · intro h
    by_cases hd : hasDup d = true
    · simp [addIntVariable, hd, Api.raise]
    · have hd' : hasDup d = false := by simpa using hd
      have h := h.resolve_left (fun h => h ((hasDup_iff d).1 hd'))
      simp [addIntVariable, hd', Api.bind_apply, h1 h]
  · intro hd hn
    have hd' := (hasDup_iff d).2 hd
    have hs := (nameInv_add (.inl rfl) (h2 hn) hi ⟨some d, none⟩).2
    simp [addIntVariable, hd', Api.bind_apply, h2 hn, Api.model, Api.setModel, hs, pure, Api.pure]

/-- A parameter is refused with `ValueError` if its name is not to be had. Otherwise it is added at the end as an object of its own, which holds the
value, and the call returns it; the other parameters keep their values. -/
theorem C72_parameter (v : Int) (n : Option Name) (w : World) (hi : NameInv w.model.vars) :
    (NameRefused w.model n → addParameter v n w = (w, .error .valueError)) ∧
    (¬ NameRefused w.model n → ∃ h, addParameter v n w =
      (⟨{ w.model with vars := w.model.vars ++ [(givenName "_p" w.model n, ⟨none, some w.heap.nparams⟩)] }, h⟩,
        .ok (.param w.heap.nparams (givenName "_p" w.model n))) ∧
      h.params w.heap.nparams = v ∧ (∀ i, i ≠ w.heap.nparams → h.params i = w.heap.params i) ∧ w.heap.nparams < h.nparams ∧
      h.fns = w.heap.fns ∧ h.ncons = w.heap.ncons) := by
  obtain ⟨h1, h2⟩ := getName_exact "_p" n w
  constructor
  · intro h
    simp [addParameter, Api.bind_apply, h1 h]
  · intro hn
    have hs := (nameInv_add (.inr rfl) (h2 hn) hi ⟨none, some w.heap.nparams⟩).2
    refine ⟨(w.heap.newParam v).2, ?_, by simp [Heap.newParam, Heap.setParam], ?_, by simp [Heap.newParam], rfl, rfl⟩
    · rw [addParameter, Api.bind_apply, h2 hn]
      simp only [Heap.newParam] at hs ⊢
      rw [hs]
    · intro i hi
      simp [Heap.newParam, Heap.setParam, hi]

/-! ## constraints -/

/-- The variables of a constraint. -/
def uses (k : CKind) (x : Name) : Prop :=
  match k with
  | .const _ => False
  | .expr e => Occurs x e
  | .allDiff l => x ∈ l

theorem mem_vars_iff (c : Constraint) (x : Name) : x ∈ c.vars ↔ uses c.kind x := by
  cases hk : c.kind with
  | const b => simp [Constraint.vars, hk, CKind.vars, uses]
  | expr e => simp [Constraint.vars, hk, CKind.vars, uses, C03_vars_exact]
  | allDiff l => simp [Constraint.vars, hk, CKind.vars, uses]

/-- What adding a constraint object does. -/
inductive Adding (c : Constraint) (w : World) : World × Res Unit → Prop
  /-- it mentions a variable that the model does not have -/
  | unknown {x : Name} : uses c.kind x → x ∉ w.model.vars.keys → Adding c w (w, .error .valueError)
  /-- it is about variables of the model -/
  | stored {x : Name} : uses c.kind x → (∀ y, uses c.kind y → y ∈ w.model.vars.keys) →
      Adding c w ({ w with model := { w.model with constraints := w.model.constraints ++ [c] } }, .ok ())
  /-- it is about no variable and cannot be evaluated -/
  | raises {e : Err} : (∀ x, ¬ uses c.kind x) → c.evaluate w.heap [] = .error e → Adding c w (w, .error e)
  /-- it is about no variable and holds: nothing happens -/
  | holds {v : Int} : (∀ x, ¬ uses c.kind x) → c.evaluate w.heap [] = .ok v → v ≠ 0 → Adding c w (w, .ok ())
  /-- it is about no variable and does not hold: it is stored and the model is not solvable -/
  | fails : (∀ x, ¬ uses c.kind x) → c.evaluate w.heap [] = .ok 0 →
      Adding c w ({ w with model := { w.model with solvable := false, constraints := w.model.constraints ++ [c] } }, .ok ())

theorem C72_object (c : Constraint) (w : World) (out : World × Res Unit) : addConstraint (.constraint c) w = out ↔ Adding c w out := by
  have hnil : c.vars = [] ↔ ∀ x, ¬ uses c.kind x := by
    rw [List.eq_nil_iff_forall_not_mem]
    simp [mem_vars_iff]
  have hex : (∃ x ∈ c.vars, w.model.vars.get? x = none) ↔ ∃ x, uses c.kind x ∧ x ∉ w.model.vars.keys := by
    simp only [mem_vars_iff, Dict.get?_eq_none_iff]
  rw [addCon_effect]
  constructor
  · rintro rfl
    by_cases hv : c.vars = []
    · rw [if_pos hv]
      cases hev : c.evaluate w.heap [] with
      | error e => exact .raises (hnil.1 hv) hev
      | ok v =>
        by_cases h0 : v = 0
        · subst h0
          simp only [if_true]
          exact .fails (hnil.1 hv) hev
        · simp only [h0, if_false]
          exact .holds (hnil.1 hv) hev h0
    · rw [if_neg hv]
      by_cases hx : ∃ x ∈ c.vars, w.model.vars.get? x = none
      · rw [if_pos hx]
        obtain ⟨x, h1, h2⟩ := hex.1 hx
        exact .unknown h1 h2
      · rw [if_neg hx]
        rw [hnil] at hv
        push Not at hv
        obtain ⟨x, h1⟩ := hv
        refine .stored h1 (fun y hy => ?_)
        by_contra hn
        exact hx (hex.2 ⟨y, hy, hn⟩)
  · intro h
    cases h with
    | unknown h1 h2 =>
      have hv : c.vars ≠ [] := fun hv => hnil.1 hv _ h1
      rw [if_neg hv, if_pos (hex.2 ⟨_, h1, h2⟩)]
    | stored h1 h2 =>
      have hv : c.vars ≠ [] := fun hv => hnil.1 hv _ h1
      rw [if_neg hv, if_neg]
      rw [hex]
      rintro ⟨y, hy, hn⟩
      exact hn (h2 y hy)
    | raises h1 h2 => rw [if_pos (hnil.2 h1), h2]
    | holds h1 h2 h3 => rw [if_pos (hnil.2 h1), h2]; simp [h3]
    | fails h1 h2 => rw [if_pos (hnil.2 h1), h2]; simp

/-- A new constraint object of this kind, which is not compiled; the other objects are as before. -/
def NewObject (k : CKind) (h : Heap) (c : Constraint) (h' : Heap) : Prop :=
  c.kind = k ∧ c.id = h.ncons ∧ h'.ncons = h.ncons + 1 ∧ h'.fns c.id = none ∧ (∀ i, i ≠ c.id → h'.fns i = h.fns i) ∧ h'.params = h.params ∧
    h'.nparams = h.nparams

/-- What `add_constraint` makes of its argument: a bool and an expression become new constraint objects, a constraint object is taken as it is. -/
inductive Accepts : CArg → Heap → Constraint → Heap → Prop
  | bool {b : Bool} {h h' : Heap} {c : Constraint} : NewObject (.const b) h c h' → Accepts (.bool b) h c h'
  | expr {e : Expr} {h h' : Heap} {c : Constraint} : NewObject (.expr e) h c h' → Accepts (.expr e) h c h'
  | object {c : Constraint} {h : Heap} : Accepts (.constraint c) h c h

theorem newObject (k : CKind) (h : Heap) : NewObject k h ⟨h.ncons, k⟩ (h.newConstraint k).2 :=
  ⟨rfl, rfl, rfl, by simp [Heap.newConstraint], fun i hi => by simp only [Heap.newConstraint]; rw [if_neg hi], rfl, rfl⟩

/-- `add_constraint` raises `TypeError` for everything that is no constraint, and else does with the constraint what `Adding` says. -/
theorem C72_constraint (arg : CArg) (w : World) :
    (arg = .other ∧ addConstraint arg w = (w, .error .typeError)) ∨
    ∃ c h, Accepts arg w.heap c h ∧ Adding c { w with heap := h } (addConstraint arg w) := by
  cases arg with
  | other => exact .inl ⟨rfl, rfl⟩
  | bool b => exact .inr ⟨_, _, .bool (newObject _ _), (C72_object _ _ _).1 rfl⟩
  | expr e => exact .inr ⟨_, _, .expr (newObject _ _), (C72_object _ _ _).1 rfl⟩
  | constraint c => exact .inr ⟨c, _, .object, (C72_object _ _ _).1 rfl⟩

/-- `add_all_different_constraint` adds a new object for these variables. -/
theorem C72_all_different (names : List Name) (w : World) :
    ∃ c h, NewObject (.allDiff names) w.heap c h ∧ Adding c { w with heap := h } (addAllDifferent names w) :=
  ⟨_, _, newObject _ _, (C72_object _ _ _).1 rfl⟩

/-! ## looking things up -/

/-- `get_variable` and `get_var_domain` raise `KeyError` for names the model does not have. -/
theorem C72_no_key {m : Model} {x : Name} (hx : x ∉ m.vars.keys) : m.getVariable x = .error .keyError ∧ m.getVarDomain x = .error .keyError := by
  have := (Dict.get?_eq_none_iff m.vars x).2 hx
  simp [Model.getVariable, Model.getVarDomain, this]

theorem runCalls_grow (cs : List Call) (w : World) (hi : NameInv w.model.vars) : ∃ later, (runCalls cs w).model.vars = w.model.vars ++ later := by
  induction cs generalizing w with
  | nil => exact ⟨[], by simp [runCalls]⟩
  | cons c cs ih =>
    have hc := C11_call c w hi
    obtain ⟨l, hl⟩ := ih _ hc.1
    rcases hc.2 with h' | ⟨nm, info, _, _, h'⟩
    · exact ⟨l, by rw [runCalls, hl, h']⟩
    · exact ⟨(nm, info) :: l, by rw [runCalls, hl, h']; simp⟩

theorem get_kept (cs : List Call) {w : World} (hi : NameInv w.model.vars) {x : Name} {info : VarInfo} (hx : (x, info) ∈ w.model.vars) :
    (runCalls cs w).model.vars.get? x = some info := by
  obtain ⟨l, hl⟩ := runCalls_grow cs w hi
  have hn := (runCalls_inv cs w hi).1
  rw [hl] at hn ⊢
  exact Dict.get?_of_mem hn (by simp [hx])

/-- A variable that was added can be looked up by its name, with the domain it was given, whatever is called later on. -/
theorem C72_lookup {d : List Int} {n : Option Name} {w w' : World} {e : Expr} (hi : NameInv w.model.vars)
    (h : addIntVariable d n w = (w', .ok e)) (cs : List Call) :
    ∃ x, e = .var x ∧ (runCalls cs w').model.getVariable x = .ok e ∧ (runCalls cs w').model.getVarDomain x = .ok (some d) := by
  rcases addInt_effect d n w hi with ⟨e', he⟩ | ⟨nm, he, _, hn, _⟩
  · rw [he] at h; cases h
  · rw [he] at h
    simp only [Prod.mk.injEq, Except.ok.injEq] at h
    obtain ⟨rfl, rfl⟩ := h
    have := get_kept cs (w := { w with model := { w.model with vars := w.model.vars ++ [(nm, ⟨some d, none⟩)] } }) hn (x := nm)
      (info := ⟨some d, none⟩) (by simp)
    exact ⟨nm, rfl, by simp [Model.getVariable, this], by simp [Model.getVarDomain, this]⟩

/-- A parameter too; it has no domain. -/
theorem C72_lookup_parameter {v : Int} {n : Option Name} {w w' : World} {e : Expr} (hi : NameInv w.model.vars)
    (h : addParameter v n w = (w', .ok e)) (cs : List Call) :
    ∃ i x, e = .param i x ∧ (runCalls cs w').model.getVariable x = .ok e ∧ (runCalls cs w').model.getVarDomain x = .ok none := by
  rcases addParam_effect v n w hi with ⟨e', he⟩ | ⟨nm, he, hn, _⟩
  · rw [he] at h; cases h
  · rw [he] at h
    simp only [Prod.mk.injEq, Except.ok.injEq] at h
    obtain ⟨rfl, rfl⟩ := h
    have := get_kept cs (w := ⟨{ w.model with vars := w.model.vars ++ [(nm, ⟨none, some w.heap.nparams⟩)] }, (w.heap.newParam v).2⟩) hn (x := nm)
      (info := ⟨none, some w.heap.nparams⟩) (by simp)
    exact ⟨_, nm, rfl, by simp [Model.getVariable, this], by simp [Model.getVarDomain, this]⟩

/-! ## examples -/

/-- A model with a variable `x` and a parameter `p`. -/
def world72 : World := runCalls [.addInt [1, 2, 3] (some "x"), .addParam 7 (some "p")] ⟨.empty, ⟨fun _ => 0, fun _ => none, 0, 0⟩⟩

theorem world72_inv : NameInv world72.model.vars := runCalls_inv _ _ emptyInv

example : NameFits "x_1" ∧ NameFits "x\n" ∧ ¬ NameFits "" ∧ ¬ NameFits "_x" ∧ ¬ NameFits "1x" ∧ ¬ NameFits "x:y" := by
  simp only [← checkName_iff]; decide

/-- `add_int_variable([4, 5])` -/
example : (addIntVariable [4, 5] none world72).1.model.vars.keys = ["x", "p", "_v2"] := by
  rw [(C72_variable [4, 5] none world72 world72_inv).2 (by decide) (by rintro ⟨x, h, _⟩; cases h)]; rfl

/-- `add_int_variable([4, 5, 4])`, `add_int_variable([4, 5], name="p")`, `add_int_variable([4, 5], name="2x")` -/
example : (addIntVariable [4, 5, 4] none world72).2 = .error .valueError ∧ (addIntVariable [4, 5] (some "p") world72).2 = .error .valueError ∧
    (addIntVariable [4, 5] (some "2x") world72).2 = .error .valueError := by
  refine ⟨?_, ?_, ?_⟩
  · rw [(C72_variable _ _ world72 world72_inv).1 (.inl (by decide))]
  · rw [(C72_variable _ _ world72 world72_inv).1 (.inr ⟨"p", rfl, .inr (by decide)⟩)]
  · rw [(C72_variable _ _ world72 world72_inv).1 (.inr ⟨"2x", rfl, .inl (by rw [← checkName_iff]; decide)⟩)]

/-- `x == p` is stored. -/
example : Adding ⟨0, .expr (.bin .eq (.var "x") (.param 0 "p"))⟩ world72
    ({ world72 with model := { world72.model with constraints := [⟨0, .expr (.bin .eq (.var "x") (.param 0 "p"))⟩] } }, .ok ()) :=
  .stored (x := "x") (.left .var) (by
    rintro y hy
    cases hy with
    | left h => cases h; decide
    | right h => cases h)

/-- `x == y` is refused; `p == 8` makes the model unsolvable; `1 // (p - p)` raises `ZeroDivisionError`. -/
example : Adding ⟨0, .expr (.bin .eq (.var "x") (.var "y"))⟩ world72 (world72, .error .valueError) := .unknown (x := "y") (.right .var) (by decide)

example : Adding ⟨0, .expr (.bin .eq (.param 0 "p") (.const 8))⟩ world72
    (⟨⟨world72.model.vars, [⟨0, .expr (.bin .eq (.param 0 "p") (.const 8))⟩], false⟩, world72.heap⟩, .ok ()) :=
  .fails (by intro x h; cases h with | left h => cases h | right h => cases h) (by decide)

example : Adding ⟨0, .expr (.bin .div (.const 1) (.bin .sub (.param 0 "p") (.param 0 "p")))⟩ world72 (world72, .error .zeroDivision) :=
  .raises (by
    intro x h
    cases h with
    | left h => cases h
    | right h => cases h with | left h => cases h | right h => cases h) (by decide)

example : world72.model.getVariable "x" = .ok (.var "x") ∧ world72.model.getVarDomain "x" = .ok (some [1, 2, 3]) ∧
    world72.model.getVariable "p" = .ok (.param 0 "p") ∧ world72.model.getVarDomain "p" = .ok none ∧
    world72.model.getVariable "y" = .error .keyError := ⟨rfl, rfl, rfl, rfl, rfl⟩

end Satisfy.Props
