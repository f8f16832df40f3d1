import Verif.Lemmas.Listing
import Verif.Props.Compile
import Verif.SpecPuzzle
import Verif.SpecOptimize
import Mathlib.Data.List.Forall2
/-!
# What the listing of a model tells: C63

`listing dom m` is what `print_model` prints for `m`, whose domains are the objects `dom`. Two models that are listed alike should be the same problem.
-/

namespace Satisfy.Props
open Satisfy

/-- Same variables in the same order, with the same domains. -/
def SameVariables (m m' : Model) : Prop := m.vars.map (fun p => (p.1, p.2.domain)) = m'.vars.map (fun p => (p.1, p.2.domain))

/-- The claim: models with the same listing have the same solutions. -/
def C63 : Prop := ∀ (m m' : Model) (dom dom' : Name → PyDomain) (h h' : Heap), DomainsOf dom m → DomainsOf dom' m' → listing dom m = listing dom' m' →
  ∀ σ, Solves h.params m σ ↔ Solves h'.params m' σ

theorem listing_lines {dom : Name → PyDomain} {m : Model} (hm : Readable m) :
    (∀ l ∈ m.vars.mapIdx (varLine dom), '\n' ∉ l ∧ l ≠ []) ∧ (∀ l ∈ m.constraints.mapIdx conLine, '\n' ∉ l ∧ l ≠ []) := by
  constructor
  · intro l hl
    rw [List.mem_mapIdx] at hl
    obtain ⟨i, hi, rfl⟩ := hl
    refine ⟨?_, by simp [varLine]⟩
    have hx := (hm.names _ (List.mem_map_of_mem (f := Prod.fst) (List.getElem_mem hi))).1
    have hr : '\n' ∉ reprName (m.vars[i]).1 := by rw [repr_plain hx]; simp [(ident_chars hx).1]
    simp only [varLine, List.mem_append, List.mem_cons, List.cons_append, not_or]
    refine ⟨by decide, ⟨⟨⟨index_chars i, by decide⟩, hr⟩, by decide⟩, ?_⟩
    split
    · decide
    · exact domain_chars _
  · intro l hl
    rw [List.mem_mapIdx] at hl
    obtain ⟨i, hi, rfl⟩ := hl
    refine ⟨?_, by simp [conLine]⟩
    simp only [conLine, List.mem_append, List.mem_cons, List.cons_append, not_or]
    exact ⟨by decide, ⟨index_chars i, by decide⟩,
      kind_chars ⟨hm.exprs _ (List.getElem_mem hi), hm.used _ (List.getElem_mem hi)⟩⟩

theorem listing_parts {dom dom' : Name → PyDomain} {m m' : Model} (hm : Readable m) (hm' : Readable m') (h : listing dom m = listing dom' m') :
    m.vars.mapIdx (varLine dom) = m'.vars.mapIdx (varLine dom') ∧ m.constraints.mapIdx conLine = m'.constraints.mapIdx conLine := by
  have l1 := listing_lines (dom := dom) hm
  have l2 := listing_lines (dom := dom') hm'
  have hl : ∀ {A B : List (List Char)}, (∀ l ∈ A, '\n' ∉ l ∧ l ≠ []) → (∀ l ∈ B, '\n' ∉ l ∧ l ≠ []) →
      ∀ l ∈ ["", "=== model variables: ==="].map String.toList ++ A ++ ["", "=== model constraints: ==="].map String.toList ++ B, '\n' ∉ l := by
    intro A B hA hB l hl
    simp only [List.mem_append] at hl
    rcases hl with ((hl | hl) | hl) | hl
    · simp only [List.map_cons, List.map_nil, List.mem_cons, List.not_mem_nil, or_false] at hl
      rcases hl with rfl | rfl <;> decide +kernel
    · exact (hA l hl).1
    · simp only [List.map_cons, List.map_nil, List.mem_cons, List.not_mem_nil, or_false] at hl
      rcases hl with rfl | rfl <;> decide +kernel
    · exact (hB l hl).1
  have h := lines_inj h (hl l1.1 l1.2) (hl l2.1 l2.2)
  simp only [List.append_assoc] at h
  have h := List.append_cancel_left h
  have h := split_empty h (fun h => (l1.1 _ h).2 rfl) (fun h => (l2.1 _ h).2 rfl)
  exact ⟨h.1, List.append_cancel_left (as := ["=== model constraints: ===".toList]) h.2⟩

/-- Models with plain names and bracketed expressions without parameters: same listing, same variables and domains, and constraints that pairwise mean the same. -/
theorem C63_parts {m m' : Model} {dom dom' : Name → PyDomain} (hm : Readable m) (hm' : Readable m') (hd : DomainsOf dom m) (hd' : DomainsOf dom' m')
    (h : listing dom m = listing dom' m') :
    SameVariables m m' ∧ List.Forall₂ (fun c c' => ∀ ρ ρ' σ, Meaning ρ c σ ↔ Meaning ρ' c' σ) m.constraints m'.constraints := by
  obtain ⟨hv, hc⟩ := listing_parts hm hm' h
  constructor
  · have hlen : m.vars.length = m'.vars.length := by have := congrArg List.length hv; simpa using this
    unfold SameVariables
    apply List.ext_getElem
    · simpa using hlen
    · intro i h1 h2
      simp only [List.length_map] at h1 h2
      simp only [List.getElem_map]
      have hi : (m.vars.mapIdx (varLine dom))[i]'(by simpa using h1) = (m'.vars.mapIdx (varLine dom'))[i]'(by simpa using h2) := by
        congr 1
      simp only [List.getElem_mapIdx, varLine, List.append_assoc, List.cons_append, List.cons.injEq, true_and] at hi
      have hi := List.append_cancel_left hi
      simp only [List.nil_append, List.cons.injEq, true_and] at hi
      have hx := (hm.names _ (List.mem_map_of_mem (f := Prod.fst) (List.getElem_mem h1))).1
      have hx' := (hm'.names _ (List.mem_map_of_mem (f := Prod.fst) (List.getElem_mem h2))).1
      obtain ⟨e1, e2⟩ := repr_inj hx hx' hi
      have e2 := List.append_cancel_left e2
      refine Prod.ext e1 ?_
      have d1 : ∀ d, (m.vars[i]).2.domain = some d → (dom (m.vars[i]).1).values = d := fun d => hd _ _ _ (List.getElem_mem h1)
      have d2 : ∀ d, (m'.vars[i]).2.domain = some d → (dom' (m'.vars[i]).1).values = d := fun d => hd' _ _ _ (List.getElem_mem h2)
      have hnone : ∀ d : PyDomain, "None".toList ≠ d.text := by
        intro d
        match d with
        | .list _ => simp [PyDomain.text]
        | .tuple [] => decide
        | .tuple [_] => simp [PyDomain.text]
        | .tuple (_ :: _ :: _) => simp [PyDomain.text]
        | .range .. => simp [PyDomain.text]
        | .set [] => decide
        | .set (_ :: _) => simp [PyDomain.text]
      simp only
      cases h3 : (m.vars[i]).2.domain with
      | none =>
        cases h4 : (m'.vars[i]).2.domain with
        | none => rfl
        | some d' => rw [h3, h4] at e2; exact absurd e2 (hnone _)
      | some d =>
        cases h4 : (m'.vars[i]).2.domain with
        | none => rw [h3, h4] at e2; exact absurd e2.symm (hnone _)
        | some d' =>
          rw [h3, h4] at e2
          rw [← d1 d h3, ← d2 d' h4, domain_inj e2]
  · rw [List.forall₂_iff_get]
    have hlen : m.constraints.length = m'.constraints.length := by have := congrArg List.length hc; simpa using this
    refine ⟨hlen, fun i h1 h2 ρ ρ' σ => ?_⟩
    have hi : (m.constraints.mapIdx conLine)[i]'(by simpa using h1) = (m'.constraints.mapIdx conLine)[i]'(by simpa using h2) := by
      congr 1
    simp only [List.getElem_mapIdx, conLine, List.append_assoc, List.cons_append, List.cons.injEq, true_and] at hi
    have hi := List.append_cancel_left hi
    simp only [List.nil_append, List.cons.injEq, true_and] at hi
    exact text_meaning ⟨hm.exprs _ (List.getElem_mem h1), hm.used _ (List.getElem_mem h1)⟩
      ⟨hm'.exprs _ (List.getElem_mem h2), hm'.used _ (List.getElem_mem h2)⟩ hi _ _ ρ ρ' σ

theorem domain_of_same {m m' : Model} (h : SameVariables m m') (x : Name) : m.domain? x = m'.domain? x := by
  have key : ∀ d : Dict VarInfo, (d.get? x).bind (·.domain) = ((Dict.get? (d.map (fun p => (p.1, p.2.domain)) : Dict (Option (List Int))) x).bind id) := by
    intro d
    induction d with
    | nil => rfl
    | cons p d ih =>
      obtain ⟨k, i⟩ := p
      by_cases hk : k = x
      · simp [Dict.get?, hk]
      · simp only [Dict.get?, List.map_cons, List.find?_cons, hk, decide_false, beq_iff_eq] at ih ⊢
        exact ih
  unfold Model.domain?
  rw [key, key, h]

/-- Missing from the claim: models with a parameter (its value is not listed, `C63_refuted_param`), with variables named `True` or `False` (`C63_refuted_name`) and with explicit
`Sum`/`Prod` objects of two values (`C63_refuted_brackets`). -/
theorem C63_partial {m m' : Model} {dom dom' : Name → PyDomain} (hm : Readable m) (hm' : Readable m') (hd : DomainsOf dom m) (hd' : DomainsOf dom' m')
    (h : listing dom m = listing dom' m') (ρ ρ' : Store) (σ : Subst) : Solves ρ m σ ↔ Solves ρ' m' σ := by
  obtain ⟨h1, h2⟩ := C63_parts hm hm' hd hd' h
  have hdom := domain_of_same h1
  unfold Solves
  have ha : Assignment m σ ↔ Assignment m' σ := by
    constructor
    · intro a; exact ⟨a.nodup, fun x => by rw [← hdom]; exact a.keys x, fun x v hv => by rw [← hdom]; exact a.dom x v hv⟩
    · intro a; exact ⟨a.nodup, fun x => by rw [hdom]; exact a.keys x, fun x v hv => by rw [hdom]; exact a.dom x v hv⟩
  have hc : (∀ c ∈ m.constraints, Meaning ρ c σ) ↔ ∀ c ∈ m'.constraints, Meaning ρ' c σ := by
    clear ha hdom h1 h hd hd' hm hm'
    generalize m.constraints = cs at h2 ⊢
    generalize m'.constraints = cs' at h2 ⊢
    induction h2 with
    | nil => simp
    | cons hab _ ih => simp only [List.mem_cons, forall_eq_or_imp, ih, hab ρ ρ' σ]
  rw [ha, hc]

/-- Expressions built with the operators, without parameters, are bracketed. -/
theorem C63_operators {t : OpTerm} {e : Expr} (h : t.build = .ok (.expr e)) (hz : t.noZeroMinus) (hp : e.params = []) : e.bracketed = true := by
  have key : ∀ {q : Bool} {e : Expr}, Nice q e → e.params = [] → e.bracketed = true := by
    intro q e h
    induction h with
    | const v => intro _; rfl
    | var x => intro _; rfl
    | param i n => intro h; cases h
    | neg _ ih => intro h; exact ih h
    | bin _ _ _ _ _ ihl ihr =>
      intro h
      simp only [Expr.params, List.append_eq_nil_iff] at h
      simp [Expr.bracketed, ihl h.1, ihr h.2]
    | @acc q k c es h1 h2 _ _ _ ih =>
      intro h
      simp only [Expr.bracketed, Bool.and_eq_true, decide_eq_true_eq, bracketedAll_iff]
      refine ⟨by split <;> omega, fun e he => ih e he ?_⟩
      have : ∀ es : List Expr, Expr.paramsList es = [] → ∀ e ∈ es, e.params = [] := by
        intro es
        induction es with
        | nil => intro _ e he; cases he
        | cons e' es ih =>
          intro h e he
          simp only [Expr.paramsList, List.append_eq_nil_iff] at h
          rcases List.mem_cons.1 he with rfl | he
          · exact h.1
          · exact ih h.2 e he
      exact this es h e he
  exact key (build_nice h hz) hp

/-! ### where the listing is not enough -/

/-- Two models are listed alike; `σ` solves only the first. -/
def Confused (m m' : Model) (h h' : Heap) (dom : Name → PyDomain) (σ : Subst) : Prop :=
  DomainsOf dom m ∧ DomainsOf dom m' ∧ listing dom m = listing dom m' ∧ Solves h.params m σ ∧ ¬ Solves h'.params m' σ

theorem confused_refutes {m m' h h' dom σ} (c : Confused m m' h h' dom σ) : ¬ C63 :=
  fun H => c.2.2.2.2 ((H m m' dom dom h h' c.1 c.2.1 c.2.2.1 σ).1 c.2.2.2.1)

/-- One variable, one parameter of the given value, and the constraint that they are equal. -/
def paramModel (v : Int) : Api Unit := do
  let x ← addIntVariable [1, 2] (some "x")
  let p ← addParameter v (some "p")
  match Obj.cmp .eq (.expr x) (.expr p) with
  | .expr e => addConstraint (.expr e)
  | .int _ => return ()

/-- A model with a variable called `False`, and a constraint. -/
def falseModel (c : CArg) : Api Unit := do
  let _ ← addIntVariable [0, 1] (some "False")
  addConstraint c

/-- A model with three variables, and a constraint. -/
def threeModel (e : Expr) : Api Unit := do
  let _ ← addIntVariable [0, 1] (some "x")
  let _ ← addIntVariable [0, 1] (some "y")
  let _ ← addIntVariable [0, 1] (some "z")
  addConstraint (.expr e)

/-- Solutions of the examples. -/
theorem solves_of {ρ : Store} {m : Model} {σ : Subst} (h1 : σ.keys.Nodup) (h2 : ∀ x ∈ σ.keys, (m.domain? x).isSome)
    (h3 : ∀ p ∈ m.vars, p.2.domain.isSome → p.1 ∈ σ.keys) (h4 : ∀ p ∈ σ, ∃ d, m.domain? p.1 = some d ∧ p.2 ∈ d) (h5 : ∀ c ∈ m.constraints, Meaning ρ c σ) :
    Solves ρ m σ := by
  refine ⟨⟨h1, fun x => ⟨h2 x, fun hx => ?_⟩, fun x v hv => ?_⟩, h5⟩
  · unfold Model.domain? at hx
    cases hg : m.vars.get? x with
    | none => rw [hg] at hx; cases hx
    | some i =>
      rw [hg] at hx
      exact h3 (x, i) (Dict.mem_of_get? hg) hx
  · exact h4 (x, v) (Dict.mem_of_get? hv)

/-- The value of a parameter is not listed: `x == p` with `p = 1` and with `p = 2`. -/
theorem C63_refuted_param : Confused (built (paramModel 1) ()).1.model (built (paramModel 2) ()).1.model (built (paramModel 1) ()).1.heap
    (built (paramModel 2) ()).1.heap (fun _ => .list [1, 2]) [("x", 1)] := by
  have e : ∀ v, (built (paramModel v) ()).1.model =
      ⟨[("x", ⟨some [1, 2], none⟩), ("p", ⟨none, some 0⟩)], [⟨0, .expr (.bin .eq (.param 0 "p") (.var "x"))⟩], true⟩ := by intro v; rfl
  have hp : ∀ v, (built (paramModel v) ()).1.heap.params 0 = v := by intro v; rfl
  rw [e, e]
  have hd : DomainsOf (fun _ => .list [1, 2])
      ⟨[("x", ⟨some [1, 2], none⟩), ("p", ⟨none, some 0⟩)], [⟨0, .expr (.bin .eq (.param 0 "p") (.var "x"))⟩], true⟩ := by
    intro x i d h hi
    simp only [List.mem_cons, Prod.mk.injEq, List.not_mem_nil, or_false] at h
    rcases h with ⟨_, rfl⟩ | ⟨_, rfl⟩ <;> simp at hi
    exact hi
  refine ⟨hd, hd, rfl, solves_of (by decide) (by decide) (by decide) (by simp [Model.domain?, Dict.get?]) ?_, ?_⟩
  · simp [Meaning, Expr.eval, Dict.get?, hp, BOp.op, ofBool, bind, Except.bind]
  · intro h
    have := h.2 _ (List.mem_singleton.2 rfl)
    simp [Meaning, Expr.eval, Dict.get?, hp, BOp.op, ofBool, bind, Except.bind] at this

/-- A variable called `False` is listed like the constraint that never holds. -/
theorem C63_refuted_name : Confused (built (falseModel (.expr (.var "False"))) ()).1.model (built (falseModel (.bool false)) ()).1.model
    (built (falseModel (.expr (.var "False"))) ()).1.heap (built (falseModel (.bool false)) ()).1.heap (fun _ => .tuple [0, 1]) [("False", 1)] := by
  have e1 : (built (falseModel (.expr (.var "False"))) ()).1.model = ⟨[("False", ⟨some [0, 1], none⟩)], [⟨0, .expr (.var "False")⟩], true⟩ := by rfl
  have e2 : (built (falseModel (.bool false)) ()).1.model = ⟨[("False", ⟨some [0, 1], none⟩)], [⟨0, .const false⟩], false⟩ := by rfl
  rw [e1, e2]
  have hd : ∀ cs b, DomainsOf (fun _ => .tuple [0, 1]) ⟨[("False", ⟨some [0, 1], none⟩)], cs, b⟩ := by
    intro cs b x i d h hi
    simp only [List.mem_cons, Prod.mk.injEq, List.not_mem_nil, or_false] at h
    rcases h with ⟨_, rfl⟩
    simpa [PyDomain.values] using hi
  refine ⟨hd _ _, hd _ _, rfl, solves_of (by decide) (by decide) (by decide) (by simp [Model.domain?, Dict.get?]) ?_, ?_⟩
  · simp [Meaning, Expr.eval, Dict.get?]
  · intro h
    have := h.2 _ (List.mem_singleton.2 rfl)
    simp [Meaning] at this

/-- Explicit sums and products of two values are listed without brackets: `Sum([Prod([x, y]), z]) == 1` and `Prod([x, Sum([y, z])]) == 1`. -/
theorem C63_refuted_brackets :
    let e : Expr := .bin .eq (.acc .sum 0 [.acc .prod 1 [.var "x", .var "y"], .var "z"]) (.const 1)
    let e' : Expr := .bin .eq (.acc .prod 1 [.var "x", .acc .sum 0 [.var "y", .var "z"]]) (.const 1)
    Confused (built (threeModel e) ()).1.model (built (threeModel e') ()).1.model (built (threeModel e) ()).1.heap (built (threeModel e') ()).1.heap
      (fun _ => .range 0 2 1) [("x", 0), ("y", 0), ("z", 1)] := by
  intro e e'
  have e1 : ∀ f : Expr, f = e ∨ f = e' → (built (threeModel f) ()).1.model =
      ⟨[("x", ⟨some [0, 1], none⟩), ("y", ⟨some [0, 1], none⟩), ("z", ⟨some [0, 1], none⟩)], [⟨0, .expr f⟩], true⟩ := by
    rintro f (rfl | rfl) <;> rfl
  rw [e1 e (.inl rfl), e1 e' (.inr rfl)]
  have hd : ∀ cs b, DomainsOf (fun _ => .range 0 2 1)
      ⟨[("x", ⟨some [0, 1], none⟩), ("y", ⟨some [0, 1], none⟩), ("z", ⟨some [0, 1], none⟩)], cs, b⟩ := by
    intro cs b x i d h hi
    simp only [List.mem_cons, Prod.mk.injEq, List.not_mem_nil, or_false] at h
    rcases h with ⟨_, rfl⟩ | ⟨_, rfl⟩ | ⟨_, rfl⟩ <;> (cases hi; rfl)
  refine ⟨hd _ _, hd _ _, by decide +kernel, solves_of (by decide) (by decide) (by decide) (by simp [Model.domain?, Dict.get?]) ?_, ?_⟩
  · intro c hc
    rw [List.mem_singleton.1 hc]
    exact ⟨1, by decide, by decide⟩
  · intro h
    obtain ⟨r, h1, h2⟩ := h.2 _ (List.mem_singleton.2 rfl)
    have : e'.eval (built (threeModel e') ()).1.heap.params [("x", 0), ("y", 0), ("z", 1)] = .ok 0 := by decide
    rw [this] at h1
    injection h1 with h1
    exact h2 h1.symm

theorem C63_refuted : ¬ C63 := confused_refutes C63_refuted_param

/-! ### a listing -/

/-- `x` in `range(3)`, `y` in `[1, 5]`, both different, `x + 2 * y <= 4` written with operators. -/
def smallModel : Api Unit := do
  let _ ← addIntVariable [0, 1, 2] (some "x")
  let _ ← addIntVariable [1, 5] (some "y")
  addAllDifferent ["y", "x"]
  addConstraint (.expr (.bin .le (.bin .add (.var "x") (.bin .mul (.const 2) (.var "y"))) (.const 4)))

/-- The objects used for the domains. -/
def smallDomains (x : Name) : PyDomain := if x = "x" then .range 0 3 1 else .list [1, 5]

-- what is printed, and that the hypotheses of `C63_partial` hold
example : String.ofList (listing smallDomains (built smallModel ()).1.model) = "
=== model variables: ===
    0) 'x' domain: range(0, 3)
    1) 'y' domain: [1, 5]

=== model constraints: ===
    0) AllDifferentConstraint(['x', 'y'])
    1) ((x + (2 * y)) <= 4)
" := by decide +kernel

example : Readable (built smallModel ()).1.model ∧ DomainsOf smallDomains (built smallModel ()).1.model := by
  have e : (built smallModel ()).1.model = ⟨[("x", ⟨some [0, 1, 2], none⟩), ("y", ⟨some [1, 5], none⟩)],
      [⟨0, .allDiff ["y", "x"]⟩, ⟨1, .expr (.bin .le (.bin .add (.var "x") (.bin .mul (.const 2) (.var "y"))) (.const 4))⟩], true⟩ := by rfl
  rw [e]
  refine ⟨⟨by decide, ?_, ?_⟩, ?_⟩
  · intro c hc f hf
    simp only [List.mem_cons, List.not_mem_nil, or_false] at hc
    rcases hc with rfl | rfl <;> cases hf
    rfl
  · intro c hc
    simp only [List.mem_cons, List.not_mem_nil, or_false] at hc
    rcases hc with rfl | rfl <;> decide
  · intro x i d h hi
    simp only [List.mem_cons, Prod.mk.injEq, List.not_mem_nil, or_false] at h
    rcases h with ⟨rfl, rfl⟩ | ⟨rfl, rfl⟩ <;> (cases hi; rfl)

end Satisfy.Props
