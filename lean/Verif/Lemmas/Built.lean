import Verif.SpecPuzzle
import Verif.Props.Limits
import Verif.Props.Compile
import Verif.Lemmas.Operands
/-! Models built by a program: variables, and what the constraints say together. -/

namespace Satisfy

open Props

theorem Api.each_spec {α β : Type} {f : α → Api β} {I : List α → World → Prop} {g : α → β} (l : List α)
    (h : ∀ pre a post w, l = pre ++ a :: post → I pre w → ∃ w', f a w = (w', .ok (g a)) ∧ I (pre ++ [a]) w')
    (w : World) (h0 : I [] w) : ∃ w', Api.each f l w = (w', .ok (l.map g)) ∧ I l w' := by
  suffices ∀ (post pre : List α) (w : World), l = pre ++ post → I pre w →
      ∃ w', Api.each f post w = (w', .ok (post.map g)) ∧ I l w' from this l [] w rfl h0
  intro post
  induction post with
  | nil => intro pre w he hi; exact ⟨w, rfl, by rw [he, List.append_nil]; exact hi⟩
  | cons a post ih =>
    intro pre w he hi
    obtain ⟨w1, h1, i1⟩ := h pre a post w he hi
    obtain ⟨w2, h2, i2⟩ := ih (pre ++ [a]) w1 (by simp [he]) i1
    refine ⟨w2, ?_, i2⟩
    simp only [Api.each, Api.bind_apply, h1, h2, List.map_cons]
    rfl

/-- `σ` gives every variable a value of its domain. -/
def OnVars (vs : Dict (List Int)) (σ : Subst) : Prop := ∀ p ∈ vs, ∃ v ∈ p.2, σ.get? p.1 = some v

/-- `σ` gives exactly these variables values of their domains. -/
structure Exact (vs : Dict (List Int)) (σ : Subst) : Prop where
  nodup : σ.keys.Nodup
  keys : ∀ x, x ∈ σ.keys ↔ x ∈ vs.keys
  on : OnVars vs σ

/-- The expression has a value whenever its variables do. -/
def Expr.Total (e : Expr) : Prop := ∀ ρ σ, (∀ x ∈ e.vars, σ.get? x ≠ none) → ∃ v, e.eval ρ σ = .ok v

/-- The world `w` has a model with the variables `vs` whose constraints together say `C`; with `sf` they can be compiled. -/
structure BuiltC (sf : Prop) (ρ : Store) (w : World) (vs : Dict (List Int)) (C : Subst → Prop) : Prop where
  params : w.heap.params = ρ
  vars : w.model.vars = vs.map (fun p => (p.1, ⟨some p.2, none⟩))
  inv : NameInv w.model.vars
  doms : ∀ p ∈ vs, p.2.Nodup
  ids : IdInv w
  over : w.model.solvable = true → ∀ c ∈ w.model.constraints, Over w.model c
  safe : ∀ c ∈ w.model.constraints, ∀ e, c.kind = .expr e → (sf → e.Safe ρ) ∧ e.Total ∧ e.params = []
  sem : ∀ σ, OnVars vs σ → ((w.model.solvable = true ∧ ∀ c ∈ w.model.constraints, Meaning ρ c σ) ↔ C σ)

abbrev Built := BuiltC True

/-- The constraints are compiled only if they can be. -/
class FitsArgs (a : SolveArgs) (sf : Prop) : Prop where
  out : a.solver.compile = true → sf

instance (a : SolveArgs) : FitsArgs a True := ⟨fun _ => trivial⟩

theorem BuiltC.empty (h : Heap) : Built h.params ⟨.empty, h⟩ [] (fun _ => True) where
  params := rfl
  vars := rfl
  inv := emptyInv
  doms := by simp
  ids := ⟨by simp [Model.empty], by intro c hc; simp [Model.empty] at hc, by simp [Model.empty]⟩
  over := by simp [Model.empty]
  safe := by simp [Model.empty]
  sem := by simp [Model.empty]

theorem BuiltC.congr {sf : Prop} {ρ : Store} {w : World} {vs : Dict (List Int)} {C C' : Subst → Prop} (hb : BuiltC sf ρ w vs C)
    (h : ∀ σ, OnVars vs σ → (C σ ↔ C' σ)) : BuiltC sf ρ w vs C' :=
  { hb with sem := fun σ hσ => (hb.sem σ hσ).trans (h σ hσ) }

theorem keys_mapVars (vs : Dict (List Int)) : Dict.keys (vs.map (fun p => (p.1, (⟨some p.2, none⟩ : VarInfo)))) = vs.keys := by
  simp [Dict.keys, List.map_map, Function.comp_def]

theorem BuiltC.keys {sf : Prop} {ρ : Store} {w : World} {vs : Dict (List Int)} {C : Subst → Prop} (hb : BuiltC sf ρ w vs C) : w.model.vars.keys = vs.keys := by
  rw [hb.vars, keys_mapVars]

theorem BuiltC.pureKeys {sf : Prop} {ρ : Store} {w : World} {vs : Dict (List Int)} {C : Subst → Prop} (hb : BuiltC sf ρ w vs C) : w.model.pureVars.keys = vs.keys := by
  rw [Model.pureVars, hb.vars, List.filterMap_map]
  simp [Function.comp_def, Dict.keys]

theorem BuiltC.nodup {sf : Prop} {ρ : Store} {w : World} {vs : Dict (List Int)} {C : Subst → Prop} (hb : BuiltC sf ρ w vs C) : vs.keys.Nodup := by
  rw [← hb.keys]; exact hb.inv.1

theorem BuiltC.domain {sf : Prop} {ρ : Store} {w : World} {vs : Dict (List Int)} {C : Subst → Prop} (hb : BuiltC sf ρ w vs C) (x : Name) :
    w.model.domain? x = vs.get? x := by
  unfold Model.domain?
  rw [hb.vars]
  clear hb
  induction vs with
  | nil => rfl
  | cons p vs ih =>
    simp only [List.map_cons, Dict.get?]
    split
    · rfl
    · exact ih

theorem get?_mem {α} {d : Dict α} {x : Name} {v : α} (h : d.get? x = some v) : (x, v) ∈ d := by
  induction d with
  | nil => simp [Dict.get?] at h
  | cons p d ih =>
    simp only [Dict.get?] at h
    split at h
    · rename_i he; cases h; subst he; exact List.mem_cons_self
    · exact List.mem_cons_of_mem _ (ih h)

theorem mem_get? {α} {d : Dict α} (hn : d.keys.Nodup) {p : Name × α} (h : p ∈ d) : d.get? p.1 = some p.2 := by
  induction d with
  | nil => simp at h
  | cons q d ih =>
    simp only [Dict.keys, List.map_cons, List.nodup_cons] at hn
    simp only [Dict.get?]
    rcases List.mem_cons.1 h with rfl | h
    · rw [if_pos rfl]
    · rw [if_neg]
      · exact ih hn.2 h
      · intro he; exact hn.1 (by rw [he]; exact List.mem_map_of_mem h)

theorem BuiltC.addInt {sf : Prop} {ρ : Store} {w : World} {vs : Dict (List Int)} {C : Subst → Prop} (hb : BuiltC sf ρ w vs C) {d : List Int} {nm : Name}
    (hd : d.Nodup) (hc : checkName nm = true) (hf : nm ∉ vs.keys) :
    ∃ w', addIntVariable d (some nm) w = (w', .ok (.var nm)) ∧ BuiltC sf ρ w' (vs ++ [(nm, d)]) C := by
  have hg : getName "_v" (some nm) w = (w, .ok nm) := by
    have h1 : w.model.vars.has nm = false := by
      rw [Dict.has_eq_false_iff, Dict.get?_eq_none_iff, hb.keys]; exact hf
    simp [getName, Api.bind_apply, Api.model, hc, h1, pure, Api.pure]
  have hdup : hasDup d = false := (hasDup_iff d).2 hd
  obtain ⟨h1, h2⟩ := nameInv_add (.inl rfl) hg hb.inv ⟨some d, none⟩
  refine ⟨{ w with model := { w.model with vars := w.model.vars ++ [(nm, ⟨some d, none⟩)] } }, ?_, ?_⟩
  · simp only [addIntVariable, hdup, Bool.false_eq_true, if_false, Api.bind_apply, hg, Api.model, Api.setModel, h2]
    rfl
  · have hdom : ∀ x, (w.model.domain? x).isSome →
        (({ w.model with vars := w.model.vars ++ [(nm, ⟨some d, none⟩)] } : Model).domain? x).isSome := by
      intro x hx
      simp only [Model.domain?, Dict.get?_append] at hx ⊢
      cases hgx : w.model.vars.get? x with
      | none => rw [hgx] at hx; simp at hx
      | some i => rw [hgx] at hx; simpa using hx
    refine ⟨hb.params, ?_, by rw [h2] at h1; exact h1, ?_, ⟨hb.ids.lt, hb.ids.same, hb.ids.fns⟩, ?_, hb.safe, ?_⟩
    · simp [hb.vars]
    · intro p hp
      rcases List.mem_append.1 hp with hp | hp
      · exact hb.doms p hp
      · simp at hp; subst hp; exact hd
    · intro hs c hcc
      obtain ⟨o1, o2⟩ := hb.over hs c hcc
      exact ⟨o1, fun x hx => hdom x (o2 x hx)⟩
    · intro σ hσ
      exact hb.sem σ (fun p hp => hσ p (by simp [hp]))

/-- Adding a constraint object whose meaning is `P` where it has a value. -/
theorem BuiltC.addCon {sf : Prop} {ρ : Store} {w : World} {vs : Dict (List Int)} {C P : Subst → Prop} (hb : BuiltC sf ρ w vs C) (k : CKind)
    (hv : ∀ x ∈ k.vars, x ∈ vs.keys) (hs : ∀ e, k = .expr e → (sf → e.Safe ρ) ∧ e.Total ∧ e.params = [])
    (hm : ∀ i σ, OnVars vs σ → (Meaning ρ ⟨i, k⟩ σ ↔ P σ))
    (h0 : k.vars = [] → ∀ i, ∃ v, Constraint.evaluate (w.heap.newConstraint k).2 ⟨w.heap.ncons, k⟩ [] = .ok v ∧ ∀ σ, v ≠ 0 ↔ Meaning ρ ⟨i, k⟩ σ) :
    ∃ w', addConstraint (.constraint ⟨w.heap.ncons, k⟩) { w with heap := (w.heap.newConstraint k).2 } = (w', .ok ()) ∧
      BuiltC sf ρ w' vs (fun σ => C σ ∧ P σ) := by
  have hid := addCon_idInv w k hb.ids
  rw [addCon_effect] at hid ⊢
  have hcv : (⟨w.heap.ncons, k⟩ : Constraint).vars = k.vars := rfl
  by_cases hk : k.vars = []
  · rw [hcv, if_pos hk] at hid ⊢
    obtain ⟨v, h1, h2⟩ := h0 hk 0
    rw [h1] at hid ⊢
    simp only at hid ⊢
    by_cases hz : v = 0
    · rw [if_pos hz] at hid ⊢
      refine ⟨_, rfl, hb.params, hb.vars, hb.inv, hb.doms, hid, by intro h; simp at h, ?_, ?_⟩
      · intro c hc e he
        rcases List.mem_append.1 hc with hc | hc
        · exact hb.safe c hc e he
        · simp at hc; subst hc; exact hs e he
      · intro σ hσ
        have : ¬ P σ := by rw [← hm 0 σ hσ, ← h2 σ]; simp [hz]
        simp [this]
    · rw [if_neg hz] at hid ⊢
      refine ⟨_, rfl, hb.params, hb.vars, hb.inv, hb.doms, hid, hb.over, hb.safe, ?_⟩
      intro σ hσ
      have : P σ := by rw [← hm 0 σ hσ, ← h2 σ]; exact hz
      simp only [this, and_true]
      exact hb.sem σ hσ
  · rw [hcv, if_neg hk] at hid ⊢
    have hx : ¬ ∃ x ∈ k.vars, w.model.vars.get? x = none := by
      rintro ⟨x, hx, hn⟩
      rw [Dict.get?_eq_none_iff, hb.keys] at hn
      exact hn (hv x hx)
    rw [if_neg hx] at hid ⊢
    refine ⟨_, rfl, hb.params, hb.vars, hb.inv, hb.doms, hid, ?_, ?_, ?_⟩
    · intro h c hc
      rcases List.mem_append.1 hc with hc | hc
      · exact hb.over h c hc
      · simp at hc; subst hc
        refine ⟨hk, fun x hx => ?_⟩
        have : w.model.domain? x = vs.get? x := hb.domain x
        show (w.model.domain? x).isSome
        rw [this]
        obtain ⟨d, hd⟩ := Dict.get?_isSome_of_mem_keys (hv x hx)
        simp [hd]
    · intro c hc e he
      rcases List.mem_append.1 hc with hc | hc
      · exact hb.safe c hc e he
      · simp at hc; subst hc; exact hs e he
    · intro σ hσ
      rw [← hb.sem σ hσ, ← hm w.heap.ncons σ hσ]
      constructor
      · rintro ⟨h1, h2⟩
        exact ⟨⟨h1, fun c hc => h2 c (by simp [hc])⟩, h2 _ (by simp)⟩
      · rintro ⟨⟨h1, h2⟩, h3⟩
        refine ⟨h1, fun c hc => ?_⟩
        rcases List.mem_append.1 hc with hc | hc
        · exact h2 c hc
        · simp at hc; subst hc; exact h3

theorem BuiltC.addAllDiff {sf : Prop} {ρ : Store} {w : World} {vs : Dict (List Int)} {C : Subst → Prop} (hb : BuiltC sf ρ w vs C) (ns : List Name)
    (hv : ∀ x ∈ ns, x ∈ vs.keys) :
    ∃ w', addAllDifferent ns w = (w', .ok ()) ∧
      BuiltC sf ρ w' vs (fun σ => C σ ∧ ∀ x ∈ ns, ∀ y ∈ ns, x ≠ y → σ.get? x ≠ σ.get? y) := by
  rw [addAllDiff_eq]
  refine hb.addCon (.allDiff ns) (fun x hx => hv x ((mem_dedup _ _).1 hx)) (by intro e he; cases he) ?_ ?_
  · intro i σ hσ
    simp only [Meaning]
    refine and_iff_right (fun x hx => ?_)
    obtain ⟨d, hd⟩ := Dict.get?_isSome_of_mem_keys (hv x hx)
    obtain ⟨v, _, hv⟩ := hσ _ (get?_mem hd)
    simp only at hv
    simp [hv]
  · intro h i
    have : ns = [] := by
      cases ns with
      | nil => rfl
      | cons y ns =>
        have : y ∈ dedup (y :: ns) := (mem_dedup _ _).2 (by simp)
        rw [show dedup (y :: ns) = CKind.vars (.allDiff (y :: ns)) from rfl, h] at this; simp at this
    subst this
    exact ⟨1, rfl, fun σ => by simp [Meaning]⟩

theorem eval_nil_of_closed {ρ : Store} {e : Expr} (h : e.vars = []) (σ : Subst) : e.eval ρ [] = e.eval ρ σ :=
  eval_congr ρ [] σ e (by rw [h]; simp)

theorem BuiltC.addExprC {sf : Prop} {ρ : Store} {w : World} {vs : Dict (List Int)} {C : Subst → Prop} (hb : BuiltC sf ρ w vs C) (e : Expr)
    (hv : ∀ x ∈ e.vars, x ∈ vs.keys) (hs : sf → e.Safe ρ) (ht : e.Total) (hp : e.params = []) :
    ∃ w', addConstraint (.expr e) w = (w', .ok ()) ∧
      BuiltC sf ρ w' vs (fun σ => C σ ∧ ∃ v, e.eval ρ σ = .ok v ∧ v ≠ 0) := by
  rw [addCon_expr]
  refine hb.addCon (.expr e) hv (by intro e' he; cases he; exact ⟨hs, ht, hp⟩) ?_ ?_
  · intro i σ hσ; simp only [Meaning]
  · intro h i
    obtain ⟨v, hv⟩ := ht ρ [] (by rw [show e.vars = [] from h]; simp)
    refine ⟨v, ?_, fun σ => ?_⟩
    · simp only [Constraint.evaluate, Heap.newConstraint, if_true]
      rw [hb.params]; exact hv
    · simp only [Meaning]
      rw [← eval_nil_of_closed (show e.vars = [] from h) σ, hv]
      simp

theorem BuiltC.addExpr {ρ : Store} {w : World} {vs : Dict (List Int)} {C : Subst → Prop} (hb : Built ρ w vs C) (e : Expr)
    (hv : ∀ x ∈ e.vars, x ∈ vs.keys) (hs : e.Safe ρ) (ht : e.Total) (hp : e.params = []) :
    ∃ w', addConstraint (.expr e) w = (w', .ok ()) ∧ Built ρ w' vs (fun σ => C σ ∧ ∃ v, e.eval ρ σ = .ok v ∧ v ≠ 0) :=
  hb.addExprC e hv (fun _ => hs) ht hp

theorem BuiltC.addBool {sf : Prop} {ρ : Store} {w : World} {vs : Dict (List Int)} {C : Subst → Prop} (hb : BuiltC sf ρ w vs C) (b : Bool) :
    ∃ w', addConstraint (.bool b) w = (w', .ok ()) ∧ BuiltC sf ρ w' vs (fun σ => C σ ∧ b = true) := by
  rw [addCon_bool]
  refine hb.addCon (.const b) (by intro x hx; simp [CKind.vars] at hx) (by intro e' he; cases he) ?_ ?_
  · intro i σ hσ; simp only [Meaning]
  · intro h i
    exact ⟨ofBool b, rfl, fun σ => by cases b <;> simp [Meaning, ofBool]⟩

/-- The result of a comparison as an argument, unless it is a plain int. -/
def Obj.toArg : Obj → CArg
  | .int n => .bool (truthy n)
  | .expr e => .expr e

/-- The operands are not both `Const` objects. -/
def NotConsts (a b : Obj) : Prop := ¬ ((∃ m, a = .expr (.const m)) ∧ ∃ n, b = .expr (.const n))

theorem NotConsts.left {a b : Obj} (h : ∀ m, a ≠ .expr (.const m)) : NotConsts a b := fun ⟨⟨m, hm⟩, _⟩ => h m hm
theorem NotConsts.right {a b : Obj} (h : ∀ m, b ≠ .expr (.const m)) : NotConsts a b := fun ⟨_, m, hm⟩ => h m hm

theorem cmpArg_eq {a b : Obj} (c : Cmp) (h : NotConsts a b) : cmpArg c a b = (Obj.cmp c a b).toArg := by
  have key : ∀ (c : Cmp) (e : Expr) (o : Obj), NotConsts (.expr e) o → ∃ e', e.pyCmp c o = .expr e' := by
    intro c e o hn
    unfold Expr.pyCmp
    split
    · exact absurd ⟨⟨_, rfl⟩, ⟨_, rfl⟩⟩ hn
    · exact ⟨_, rfl⟩
  cases a with
  | int m =>
    cases b with
    | int n => simp [cmpArg, Obj.cmp, Obj.toArg, truthy_ofBool]
    | expr e =>
      obtain ⟨e', he⟩ := key c.swap e (.int m) (.right (by simp))
      simp [cmpArg, Obj.cmp, he, Obj.toArg]
  | expr e =>
    have hex : ∃ e', Obj.cmp c (.expr e) b = .expr e' := by
      unfold Obj.cmp
      split
      · rename_i he; cases he
      · rename_i he; cases he
      · exact key _ _ _ (.left (by simp))
      · rename_i he _; cases he
        exact key _ _ _ h
    obtain ⟨e', he⟩ := hex
    simp [cmpArg, he, Obj.toArg]

/-- Adding the result of a comparison. -/
theorem BuiltC.addObjC {sf : Prop} {ρ : Store} {w : World} {vs : Dict (List Int)} {C : Subst → Prop} (hb : BuiltC sf ρ w vs C) (o : Obj)
    (hv : ∀ x ∈ (coerce o).vars, x ∈ vs.keys) (hs : sf → (coerce o).Safe ρ) (ht : (coerce o).Total) (hp : (coerce o).params = []) :
    ∃ w', addConstraint o.toArg w = (w', .ok ()) ∧
      BuiltC sf ρ w' vs (fun σ => C σ ∧ ∃ v, o.eval ρ σ = .ok v ∧ v ≠ 0) := by
  cases o with
  | expr e => exact hb.addExprC e hv hs ht hp
  | int n =>
    obtain ⟨w', h1, h2⟩ := hb.addBool (truthy n)
    exact ⟨w', h1, h2.congr (fun σ _ => by simp [Obj.eval, truthy])⟩

theorem BuiltC.addObj {ρ : Store} {w : World} {vs : Dict (List Int)} {C : Subst → Prop} (hb : Built ρ w vs C) (o : Obj)
    (hv : ∀ x ∈ (coerce o).vars, x ∈ vs.keys) (hs : (coerce o).Safe ρ) (ht : (coerce o).Total) (hp : (coerce o).params = []) :
    ∃ w', addConstraint o.toArg w = (w', .ok ()) ∧ Built ρ w' vs (fun σ => C σ ∧ ∃ v, o.eval ρ σ = .ok v ∧ v ≠ 0) :=
  hb.addObjC o hv (fun _ => hs) ht hp

/-- With more that can be compiled, so much the better. -/
theorem BuiltC.mono {sf sf' : Prop} {ρ : Store} {w : World} {vs : Dict (List Int)} {C : Subst → Prop} (hb : BuiltC sf ρ w vs C) (h : sf' → sf) :
    BuiltC sf' ρ w vs C :=
  { hb with safe := fun c hc e he => ⟨fun x => (hb.safe c hc e he).1 (h x), (hb.safe c hc e he).2⟩ }

/-! ## Solving -/

section
variable {sf : Prop} {ρ : Store} {w : World} {vs : Dict (List Int)} {C : Subst → Prop} {a : SolveArgs}

theorem BuiltC.ok (hb : BuiltC sf ρ w vs C) (hs : ∀ l, (a.shuffle l).Perm l) (ha : a.adds = []) : SolveOk a w.model w.heap := by
  refine ⟨hs, ⟨hb.inv.1, fun x d hx => ?_⟩, by rw [ha, List.append_nil]; exact hb.ids.same, ?_⟩
  · rw [hb.domain] at hx
    exact hb.doms _ (get?_mem hx)
  · rw [ha, List.append_nil]
    intro c hc e f _ hf
    rw [hb.ids.fns c hc] at hf; cases hf

theorem BuiltC.plain [FitsArgs a sf] (hb : BuiltC sf ρ w vs C) (ha : a.adds = []) : ∀ c ∈ w.model.constraints ++ a.adds, Plain a.solver.compile w.heap c := by
  rw [ha, List.append_nil]
  intro c hc e he
  cases hc' : a.solver.compile
  · exact .inl ⟨rfl, hb.ids.fns c hc⟩
  · exact .inr ⟨rfl, by rw [hb.params]; exact (hb.safe c hc e he).1 (FitsArgs.out hc')⟩

theorem BuiltC.assignment (hb : BuiltC sf ρ w vs C) {τ : Subst} : Assignment w.model τ ↔ Exact vs τ := by
  have hk : ∀ x, (w.model.domain? x).isSome ↔ x ∈ vs.keys := by
    intro x; rw [hb.domain]
    constructor
    · intro h; obtain ⟨d, hd⟩ := Option.isSome_iff_exists.1 h; exact Dict.mem_keys_of_get? hd
    · intro h; obtain ⟨d, hd⟩ := Dict.get?_isSome_of_mem_keys h; simp [hd]
  constructor
  · intro h
    refine ⟨h.nodup, fun x => (h.keys x).trans (hk x), fun p hp => ?_⟩
    have hp' := mem_get? hb.nodup hp
    have : p.1 ∈ τ.keys := by rw [h.keys, hb.domain, hp']; rfl
    obtain ⟨v, hv⟩ := Dict.get?_isSome_of_mem_keys this
    obtain ⟨d, hd, hvd⟩ := h.dom p.1 v hv
    rw [hb.domain, hp'] at hd; cases hd
    exact ⟨v, hvd, hv⟩
  · intro h
    refine ⟨h.nodup, fun x => (h.keys x).trans (hk x).symm, fun x v hv => ?_⟩
    have hx : x ∈ vs.keys := (h.keys x).1 (Dict.mem_keys_of_get? hv)
    obtain ⟨d, hd⟩ := Dict.get?_isSome_of_mem_keys hx
    obtain ⟨v', hv', he⟩ := h.on _ (get?_mem hd)
    simp only at he
    rw [hv] at he; cases he
    exact ⟨d, by rw [hb.domain]; exact hd, hv'⟩

theorem BuiltC.no_cause [FitsArgs a sf] (hb : BuiltC sf ρ w vs C) (hsol : w.model.solvable = true) (ha : a.adds = []) (e : Err) :
    ¬ Cause w.model (compileAll a.solver.compile (w.model.constraints ++ a.adds) w.heap) (w.model.constraints ++ a.adds) e := by
  have hplain := hb.plain (a := a) ha
  rw [ha, List.append_nil] at hplain ⊢
  intro hc
  cases hc with
  | con c σ hc hw hbd hev =>
    cases hk : c.kind with
    | const b => simp [Constraint.evaluate, hk] at hev
    | allDiff ns =>
      have hv : c.vars = dedup ns := by simp [Constraint.vars, hk, CKind.vars]
      simp only [Constraint.evaluate, hk] at hev
      obtain ⟨vals, hvals⟩ := lookupAll_total (l := dedup ns) (σ := σ) (by rw [← hv]; exact hbd)
      rw [hvals] at hev; simp at hev
    | expr ex =>
      obtain ⟨hsafe, htot, _⟩ := hb.safe c hc ex hk
      have hv : c.vars = ex.vars := by simp [Constraint.vars, hk, CKind.vars]
      obtain ⟨v, hv'⟩ := htot ρ σ (by rw [← hv]; exact hbd)
      simp only [Constraint.evaluate, hk] at hev
      cases hcomp : a.solver.compile with
      | false =>
        rw [hcomp] at hev
        simp only [compileAll, Bool.false_eq_true, if_false, hb.ids.fns c hc, hb.params] at hev
        rw [hv'] at hev; cases hev
      | true =>
        rw [hcomp, compileAll_now hb.ids.same c hc ex hk, compileAll_params, hb.params] at hev
        simp only at hev
        rw [(C05_partial (hsafe (FitsArgs.out hcomp))).2 σ v hv'] at hev
        cases hev
  | unknown c ns x hc hk hx hd he =>
    have := (hb.over hsol c hc).2 x (by simp [Constraint.vars, hk, CKind.vars, mem_dedup, hx])
    rw [hd] at this; cases this
  | empty c hc hk he =>
    exact (hb.over hsol c hc).1 (by simp [Constraint.vars, hk, CKind.vars]; rfl)

theorem run_unsolvable (hsol : w.model.solvable = false) (n : Nat) :
    (solveRun a w.model passive n w.heap).1 = [] ∧ (solveRun a w.model passive n w.heap).2.1 = Gen.idle .finished := by
  have h1 : (startSolve a w.model w.heap).2.2 = Gen.idle .finished := by simp [startSolve, hsol]
  rw [solveRun_idle (ph := .finished) trivial h1]; exact ⟨rfl, rfl⟩

/-- Whatever is handed out is a solution. -/
theorem BuiltC.sound [FitsArgs a sf] (hb : BuiltC sf ρ w vs C) (hs : ∀ l, (a.shuffle l).Perm l) (ha : a.adds = []) (n : Nat) :
    ∀ τ ∈ (solveRun a w.model passive n w.heap).1, Exact vs τ ∧ C τ := by
  intro τ hτ
  by_cases hsol : w.model.solvable = true
  · have htot : ∀ τ, Assignment w.model τ → ∀ c ∈ w.model.constraints ++ a.adds, ∀ e, c.kind = .expr e →
        ∃ v, e.eval w.heap.params τ = .ok v := by
      intro τ hτ c hc e he
      rw [ha, List.append_nil] at hc
      refine (hb.safe c hc e he).2.1 _ _ (fun x hx => ?_)
      have : x ∈ τ.keys := by
        rw [hτ.keys]; exact (hb.over hsol c hc).2 x (by simp [Constraint.vars, he, CKind.vars, hx])
      obtain ⟨v, hv⟩ := Dict.get?_isSome_of_mem_keys this
      simp [hv]
    have hA := (run_sound (hb.ok hs ha) n τ hτ).1
    obtain ⟨h1, h2⟩ := C14_meaning (hb.ok hs ha) (by rw [ha, List.append_nil]; exact hb.over hsol) (hb.plain ha) n τ hτ
      (fun _ => htot τ hA)
    have hex := hb.assignment.1 h1
    refine ⟨hex, (hb.sem τ hex.on).1 ⟨hsol, fun c hc => ?_⟩⟩
    rw [← hb.params]; exact h2 c (by simp [hc])
  · rw [(run_unsolvable (by simpa using hsol) n).1] at hτ; simp at hτ

theorem BuiltC.complete [FitsArgs a sf] (hb : BuiltC sf ρ w vs C) (hs : ∀ l, (a.shuffle l).Perm l) (ha : a.adds = []) (hne : vs ≠ []) (n : Nat)
    (hend : (solveRun a w.model passive n w.heap).2.1.phase = .finished) (hint : (solveRun a w.model passive n w.heap).2.1.interrupt = none)
    (τ : Subst) (hτ : Exact vs τ) (hC : C τ) : ∃ τ' ∈ (solveRun a w.model passive n w.heap).1, SameDict τ' τ := by
  obtain ⟨hsol, hm⟩ := (hb.sem τ hτ.on).2 hC
  refine C15_meaning (hb.ok hs ha) hsol ?_ (hb.plain ha) n hend hint τ (hb.assignment.2 hτ) ?_
  · cases vs with
    | nil => exact absurd rfl hne
    | cons p vs => exact ⟨p.1, by rw [hb.domain]; simp [Dict.get?]⟩
  · rw [ha, List.append_nil, hb.params]; exact hm

/-- How an iteration ends. -/
theorem BuiltC.ends [FitsArgs a sf] (hb : BuiltC sf ρ w vs C) (hs : ∀ l, (a.shuffle l).Perm l) (ha : a.adds = []) :
    ∃ N, ∀ n ≥ N, solveRun a w.model passive n w.heap = solveRun a w.model passive N w.heap ∧
      (solveRun a w.model passive n w.heap).2.1.phase = .finished ∧
      (∀ i, (solveRun a w.model passive n w.heap).2.1.interrupt = some i →
        (i = .timeout ∧ a.solver.timeout.isSome) ∨
        (i = .limit ∧ ∃ l, a.solver.limit = some l ∧ (solveRun a w.model passive n w.heap).1.length = max 1 l.toNat)) := by
  have hok := hb.ok hs ha
  obtain ⟨N, hN, hst⟩ := C17_terminates a hs w.model hok.wf.names passive w.heap
  refine ⟨N, fun n hn => ⟨hst n hn, ?_⟩⟩
  rw [hst n hn]
  refine ⟨?_, ?_⟩
  · cases hp : (solveRun a w.model passive N w.heap).2.1.phase with
    | finished => rfl
    | raised e =>
      by_cases hsol : w.model.solvable = true
      · exact absurd (C17_raises hok N e hp) (hb.no_cause hsol ha e)
      · rw [(run_unsolvable (by simpa using hsol) N).2] at hp; cases hp
    | running => rw [hp] at hN; exact absurd hN (by simp [Phase.terminal])
    | suspended σ => rw [hp] at hN; exact absurd hN (by simp [Phase.terminal])
  · obtain ⟨D, ph, ho⟩ := outcome a w.model w.heap hs hok.wf.names
    obtain ⟨N', hN', hcut⟩ := ho a.solver.limit a.solver.timeout a.clock
    have haa : a.cut a.solver.limit a.solver.timeout a.clock = a := rfl
    rw [haa] at hN' hcut
    rw [over_unique hN' hN] at hcut
    intro i hi
    cases hcut with
    | natural _ _ h3 _ => rw [h3] at hi; cases hi
    | timeout _ _ h3 h4 _ => rw [h3] at hi; cases hi; exact .inl ⟨rfl, h4⟩
    | limit l _ _ h3 h4 h5 => rw [h3] at hi; cases hi; exact .inr ⟨rfl, l, h4, h5⟩

end

theorem Res.each_ok {α β : Type} {f : α → Res β} {g : α → β} {l : List α} (h : ∀ x ∈ l, f x = .ok (g x)) :
    Res.each f l = .ok (l.map g) := by
  induction l with
  | nil => rfl
  | cons x l ih => simp [Res.each, h x (by simp), ih (fun y hy => h y (by simp [hy]))]

theorem built_eq {α : Type} {f : Api α} {d : α} {w : World} {x : α} (h : f ⟨.empty, heap0⟩ = (w, .ok x)) : built f d = (w, x) := by
  unfold built; rw [h]

/-- Without variables nothing is produced. -/
theorem puzzle_no_vars {β : Type} {a : SolveArgs} (hs : ∀ l, (a.shuffle l).Perm l) {w : World} (hm : w.model.pureVars.keys = [])
    (dec : Subst → Res β) (n : Nat) : (puzzleRun a w dec n).1 = .ok [] := by
  simp only [puzzleRun, C15_no_variables a hs w.model w.heap n hm, Res.each]

/-- … so a valid result is missed. -/
theorem not_complete {β : Type} {a : SolveArgs} (hs : ∀ l, (a.shuffle l).Perm l) {w : World} (hm : w.model.pureVars.keys = [])
    {dec : Subst → Res β} {valid : β → Prop} (b : β) (hb : valid b) (hl : a.solver.limit = none) (ht : a.solver.timeout = none) :
    ¬ PuzzleAll a (puzzleRun a w dec) valid := by
  intro h
  obtain ⟨N, hN⟩ := h.complete
  obtain ⟨L, h1, _, h2⟩ := hN N (Nat.le_refl _)
  rw [puzzle_no_vars hs hm] at h1
  cases h1
  rcases h2 with ⟨_, h2⟩ | ⟨_, l, h2, _⟩ | ⟨_, h2⟩
  · exact absurd ((h2 b).2 hb) (by simp)
  · rw [hl] at h2; cases h2
  · rw [ht] at h2; cases h2

theorem BuiltC.results {β : Type} {sf : Prop} {ρ : Store} {w : World} {vs : Dict (List Int)} {C : Subst → Prop} {a : SolveArgs} [FitsArgs a sf] (hb : BuiltC sf ρ w vs C)
    (hs : ∀ l, (a.shuffle l).Perm l) (ha : a.adds = []) {dec : Subst → Res β} {valid : β → Prop}
    (h1 : ∀ τ, Exact vs τ → C τ → ∃ b, dec τ = .ok b ∧ valid b) (n : Nat) :
    ∃ L, Res.each dec (solveRun a w.model passive n w.heap).1 = .ok L ∧
      (solveRun a w.model passive n w.heap).1.map dec = L.map .ok := by
  have hsnd := hb.sound hs ha n
  generalize (solveRun a w.model passive n w.heap).1 = outs at hsnd ⊢
  induction outs with
  | nil => exact ⟨[], rfl, rfl⟩
  | cons τ outs ih =>
    obtain ⟨L, hL, hm⟩ := ih (fun t ht => hsnd t (by simp [ht]))
    obtain ⟨h5, h6⟩ := hsnd τ (by simp)
    obtain ⟨b, hb, _⟩ := h1 τ h5 h6
    exact ⟨b :: L, by simp [Res.each, hb, hL], by simp [hb, hm]⟩

theorem BuiltC.puzzleAll {β : Type} {sf : Prop} {ρ : Store} {w : World} {vs : Dict (List Int)} {C : Subst → Prop} {a : SolveArgs} [FitsArgs a sf] (hb : BuiltC sf ρ w vs C)
    (hs : ∀ l, (a.shuffle l).Perm l) (ha : a.adds = []) (hne : vs ≠ []) {dec : Subst → Res β} {valid : β → Prop}
    (h1 : ∀ τ, Exact vs τ → C τ → ∃ b, dec τ = .ok b ∧ valid b)
    (h2 : ∀ b, valid b → ∃ τ, Exact vs τ ∧ C τ ∧ dec τ = .ok b)
    (h4 : ∀ τ τ', SameDict τ τ' → dec τ = dec τ') :
    PuzzleAll a (puzzleRun a w dec) valid := by
  have key := hb.results hs ha h1
  constructor
  · intro n
    obtain ⟨L, hL, hm⟩ := key n
    refine ⟨L, hL, ?_⟩
    intro b hbL
    have : (Except.ok b : Res β) ∈ (solveRun a w.model passive n w.heap).1.map dec := by rw [hm]; exact List.mem_map_of_mem hbL
    obtain ⟨τ, hτ, he⟩ := List.mem_map.1 this
    obtain ⟨h5, h6⟩ := hb.sound hs ha n τ hτ
    obtain ⟨b', hb', hv⟩ := h1 τ h5 h6
    rw [he] at hb'; cases hb'; exact hv
  · obtain ⟨N, hN⟩ := hb.ends (a := a) hs ha
    refine ⟨N, fun n hn => ?_⟩
    obtain ⟨_, hf, hi⟩ := hN n hn
    obtain ⟨L, hL, hm⟩ := key n
    refine ⟨L, hL, hf, ?_⟩
    have hlen : L.length = (solveRun a w.model passive n w.heap).1.length := by
      have := congrArg List.length hm; simpa using this.symm
    simp only [puzzleRun]
    cases hint : (solveRun a w.model passive n w.heap).2.1.interrupt with
    | some i =>
      rcases hi i hint with ⟨rfl, h5⟩ | ⟨rfl, l, h5, h6⟩
      · exact .inr (.inr ⟨rfl, h5⟩)
      · exact .inr (.inl ⟨rfl, l, h5, by rw [hlen]; exact h6⟩)
    | none =>
      refine .inl ⟨rfl, fun b => ⟨fun hbL => ?_, fun hv => ?_⟩⟩
      · have : (Except.ok b : Res β) ∈ (solveRun a w.model passive n w.heap).1.map dec := by rw [hm]; exact List.mem_map_of_mem hbL
        obtain ⟨τ, hτ, he⟩ := List.mem_map.1 this
        obtain ⟨h5, h6⟩ := hb.sound hs ha n τ hτ
        obtain ⟨b', hb', hv⟩ := h1 τ h5 h6
        rw [he] at hb'; cases hb'; exact hv
      · obtain ⟨τ, h5, h6, h7⟩ := h2 b hv
        obtain ⟨τ', hτ', hsame⟩ := hb.complete hs ha hne n hf hint τ h5 h6
        have : (Except.ok b : Res β) ∈ (solveRun a w.model passive n w.heap).1.map dec :=
          List.mem_map.2 ⟨τ', hτ', by rw [h4 τ' τ hsame]; exact h7⟩
        rw [hm] at this
        obtain ⟨b', hb', he⟩ := List.mem_map.1 this
        cases he; exact hb'

theorem BuiltC.puzzle {β : Type} {sf : Prop} {ρ : Store} {w : World} {vs : Dict (List Int)} {C : Subst → Prop} {a : SolveArgs} [FitsArgs a sf] (hb : BuiltC sf ρ w vs C)
    (hs : ∀ l, (a.shuffle l).Perm l) (ha : a.adds = []) (hne : vs ≠ []) {dec : Subst → Res β} {valid : β → Prop}
    (h1 : ∀ τ, Exact vs τ → C τ → ∃ b, dec τ = .ok b ∧ valid b)
    (h2 : ∀ b, valid b → ∃ τ, Exact vs τ ∧ C τ ∧ dec τ = .ok b)
    (h3 : ∀ τ τ', Exact vs τ → Exact vs τ' → C τ → C τ' → dec τ = dec τ' → SameDict τ τ')
    (h4 : ∀ τ τ', SameDict τ τ' → dec τ = dec τ') :
    PuzzleRun a (puzzleRun a w dec) valid := by
  refine ⟨hb.puzzleAll hs ha hne h1 h2 h4, fun n L hL => ?_⟩
  obtain ⟨L', hL', hm⟩ := hb.results hs ha h1 n
  have hsnd := hb.sound hs ha n
  obtain rfl : L' = L := by
    have : (Except.ok L' : Res (List β)) = .ok L := hL'.symm.trans hL
    cases this; rfl
  have hd := C16_distinct (hb.ok hs ha) n
  have : (L'.map (Except.ok : β → Res β)).Nodup := by
    rw [← hm, List.Nodup, List.pairwise_map]
    refine hd.imp_of_mem (fun {τ τ'} hτ hτ' hne heq => hne ?_)
    obtain ⟨h5, h6⟩ := hsnd τ hτ
    obtain ⟨h7, h8⟩ := hsnd τ' hτ'
    exact h3 τ τ' h5 h7 h6 h8 heq
  exact this.of_map _

end Satisfy
