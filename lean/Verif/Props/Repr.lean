import Verif.Lemmas.Repr
import Verif.Lemmas.Names

/-!
# C70: the `repr` of an expression or a constraint tells what it is

`LooksLike e e'` says that two expressions are built in the same way from the same constants and names; only `Parameter` objects of the same name are not
told apart, since `repr` shows their names but neither their values nor their identities.
-/

namespace Satisfy.Props
open Satisfy

/-- Two expressions have the same `repr` exactly if they are alike. -/
theorem C70_repr {e e' : Expr} (h : e.plain) (h' : e'.plain) : e.reprText = e'.reprText ↔ LooksLike e e' :=
  ⟨fun he => (reading e e' [] [] h h' (by rw [he])).1, reprText_alike⟩

/-- The parameter object `i`, called `n`, occurs in an expression. -/
inductive ParamIn (i : Nat) (n : Name) : Expr → Prop
  | param : ParamIn i n (.param i n)
  | un {op : UOp} {e : Expr} : ParamIn i n e → ParamIn i n (.un op e)
  | left {op : BOp} {l r : Expr} : ParamIn i n l → ParamIn i n (.bin op l r)
  | right {op : BOp} {l r : Expr} : ParamIn i n r → ParamIn i n (.bin op l r)
  | acc {k : AccKind} {c : Int} {es : List Expr} {e : Expr} : e ∈ es → ParamIn i n e → ParamIn i n (.acc k c es)

/-- If one name is the name of one parameter, as in the expressions of one model, then expressions with the same `repr` are the same. -/
theorem C70_same {e e' : Expr} (h : e.plain) (h' : e'.plain) (hp : ∀ i j n, ParamIn i n e → ParamIn j n e' → i = j)
    (he : e.reprText = e'.reprText) : e = e' := by
  have := (C70_repr h h').1 he
  clear h h' he
  induction this with
  | const v => rfl
  | var x => rfl
  | param i j n => rw [hp i j n .param .param]
  | un _ ih => rw [ih (fun i j n hi hj => hp i j n (.un hi) (.un hj))]
  | bin _ _ ihl ihr =>
    rw [ihl (fun i j n hi hj => hp i j n (.left hi) (.left hj)), ihr (fun i j n hi hj => hp i j n (.right hi) (.right hj))]
  | @acc k c es es' hl _ ih =>
    have : es = es' := by
      clear * - hl ih hp
      apply List.ext_getElem hl
      intro i h1 h2
      exact ih (es[i], es'[i]) (by rw [List.mem_iff_getElem]; exact ⟨i, by simp [h1, h2], by simp⟩)
        (fun a b n ha hb => hp a b n (.acc (List.getElem_mem h1) ha) (.acc (List.getElem_mem h2) hb))
    rw [this]

/-- Expressions with the same `repr` have the same value under every substitution (or raise the same exception), if parameters of the same name hold the
same value. The expressions may belong to different models. -/
theorem C70_value {e e' : Expr} (h : e.plain) (h' : e'.plain) {ρ ρ' : Store} (hp : ∀ i j n, ParamIn i n e → ParamIn j n e' → ρ i = ρ' j)
    (he : e.reprText = e'.reprText) (σ : Subst) : e.eval ρ σ = e'.eval ρ' σ := by
  have := (C70_repr h h').1 he
  clear h h' he
  induction this with
  | const v => simp [Expr.eval]
  | var x => simp [Expr.eval]
  | param i j n => simp [Expr.eval, hp i j n .param .param]
  | un _ ih => simp only [Expr.eval, ih (fun i j n hi hj => hp i j n (.un hi) (.un hj))]
  | bin _ _ ihl ihr =>
    simp only [Expr.eval, ihl (fun i j n hi hj => hp i j n (.left hi) (.left hj)), ihr (fun i j n hi hj => hp i j n (.right hi) (.right hj))]
  | @acc k c es es' hl _ ih =>
    simp only [Expr.eval]
    have ih2 : ∀ p ∈ es.zip es', p.1.eval ρ σ = p.2.eval ρ' σ := fun p hm =>
      ih p hm (fun i j n hi hj => hp i j n (.acc (List.of_mem_zip hm).1 hi) (.acc (List.of_mem_zip hm).2 hj))
    clear * - hl ih2
    induction es generalizing es' c with
    | nil => cases es' with
      | nil => simp [Expr.evalAcc]
      | cons => simp at hl
    | cons e es ihs => cases es' with
      | nil => simp at hl
      | cons f es' =>
        simp only [Expr.evalAcc, ih2 (e, f) (by simp)]
        congr 1
        funext v
        exact ihs (by simpa using hl) (fun p hm => ih2 p (by simp [hm]))

/-- The names a model accepts are plain. -/
theorem C70_names {x : Name} (h : checkName x = true) : x.plain := by
  have hw : ∀ c, isWord c = true → c ≠ '\'' ∧ c ≠ '\\' := by
    intro c hc
    constructor <;> (rintro rfl; revert hc; decide)
  have ha : ∀ c : Char, c.isAlpha = true → c ≠ '\'' ∧ c ≠ '\\' := by
    intro c hc
    constructor <;> (rintro rfl; revert hc; decide)
  have key : ∀ cs : List Char, (match cs with
      | [] => false
      | c :: cs => c.isAlpha && cs.all isWord) = true → ∀ c ∈ cs, c ≠ '\'' ∧ c ≠ '\\' := by
    intro cs h c hc
    match cs with
    | [] => cases hc
    | d :: cs =>
      simp only [Bool.and_eq_true, List.all_eq_true] at h
      rcases List.mem_cons.1 hc with rfl | hc
      · exact ha _ h.1
      · exact hw _ (h.2 _ hc)
  have all : ∀ c ∈ x.toList, c ≠ '\'' ∧ c ≠ '\\' := by
    intro c hc
    unfold checkName at h
    by_cases hl : x.toList.getLast? = some '\n'
    · simp only [hl, if_true] at h
      obtain ⟨ys, hys⟩ := List.getLast?_eq_some_iff.1 hl
      rw [hys, List.dropLast_concat] at h
      rw [hys, List.mem_append] at hc
      rcases hc with hc | hc
      · exact key ys h c hc
      · simp only [List.mem_singleton] at hc; subst hc; decide
    · simp only [hl, if_false] at h
      exact key _ h c hc
  exact ⟨fun h => (all _ h).1 rfl, fun h => (all _ h).2 rfl⟩

/-- So are the names a model invents. -/
theorem C70_invented (n : Nat) : Name.plain ("_v" ++ toString n) ∧ Name.plain ("_p" ++ toString n) := by
  have hd : ∀ c ∈ (toString n).toList, c ≠ '\'' ∧ c ≠ '\\' := by
    intro c hc
    have := toString_word n c hc
    constructor <;> (rintro rfl; revert this; decide)
  have hq : '\'' ∉ (toString n).toList := fun h => (hd _ h).1 rfl
  have hb : '\\' ∉ (toString n).toList := fun h => (hd _ h).2 rfl
  refine ⟨⟨?_, ?_⟩, ?_, ?_⟩ <;> rw [String.toList_append, List.mem_append, not_or] <;> first | exact ⟨by decide, hq⟩ | exact ⟨by decide, hb⟩

/-! ## constraints -/

/-- The same constraint, except that parameters are told apart by their names only. An all-different constraint is given by the set of its variables. -/
inductive LooksLikeC : CKind → CKind → Prop
  | const (b : Bool) : LooksLikeC (.const b) (.const b)
  | expr {e e' : Expr} : LooksLike e e' → LooksLikeC (.expr e) (.expr e')
  | allDiff {l l' : List Name} : (∀ x, x ∈ l ↔ x ∈ l') → LooksLikeC (.allDiff l) (.allDiff l')

/-- The names in a constraint are plain. -/
def plainC : CKind → Prop
  | .const _ => True
  | .expr e => e.plain
  | .allDiff l => ∀ x ∈ l, x.plain

/-- Two constraints have the same `repr` exactly if they are alike. -/
theorem C70_constraint {k k' : CKind} (h : plainC k) (h' : plainC k') : k.reprText = k'.reprText ↔ LooksLikeC k k' := by
  have head : ∀ {a a' b b' : List Char}, '(' ∉ a → '(' ∉ a' → callText a b = callText a' b' → a = a' ∧ b = b' := by
    intro a a' b b' ha ha' h
    rw [callText_eq, callText_eq] at h
    obtain ⟨h1, h2⟩ := split_first h ha ha'
    exact ⟨h1, List.append_cancel_right h2⟩
  constructor
  · intro he
    match k, k', h, h' with
    | .const b, .const b', _, _ =>
      have := (head (by decide) (by decide) he).2
      cases b <;> cases b' <;> first | exact .const _ | exact absurd this (by decide)
    | .const b, .expr e, _, _ => exact absurd (head (by decide) (by decide) he).1 (by decide)
    | .const b, .allDiff l, _, _ => exact absurd (head (by decide) (by decide) he).1 (by decide)
    | .expr e, .const b, _, _ => exact absurd (head (by decide) (by decide) he).1 (by decide)
    | .expr e, .expr e', h, h' => exact .expr ((C70_repr h h').1 (head (by decide) (by decide) he).2)
    | .expr e, .allDiff l, _, _ => exact absurd (head (by decide) (by decide) he).1 (by decide)
    | .allDiff l, .const b, _, _ => exact absurd (head (by decide) (by decide) he).1 (by decide)
    | .allDiff l, .expr e, _, _ => exact absurd (head (by decide) (by decide) he).1 (by decide)
    | .allDiff l, .allDiff l', h, h' =>
      have := (head (by decide) (by decide) he).2
      simp only [List.cons_append, List.cons.injEq, true_and] at this
      have := names_read (fun x hx => h x (by simpa [mem_sortNames] using hx)) (fun x hx => h' x (by simpa [mem_sortNames] using hx))
        (List.append_cancel_right this)
      refine .allDiff (fun x => ?_)
      rw [← mem_dedup l, ← mem_dedup l', ← mem_sortNames x (dedup l), this, mem_sortNames]
  · rintro (_ | he | he)
    · rfl
    · rw [CKind.reprText, CKind.reprText, reprText_alike he]
    · rw [CKind.reprText, CKind.reprText, sorted_same he]

/-! ## examples -/

/-- `2 * x - y + p` -/
example : (Expr.acc .sum 0 [.bin .sub (.acc .prod 2 [.var "x"]) (.var "y"), .param 0 "p"]).reprText =
    "Sum(Sub(Prod(Variable('x'), const=2), Variable('y')), Parameter('p'), const=0)".toList := by decide +kernel

example : Expr.plain (.acc .sum 0 [.bin .sub (.acc .prod 2 [.var "x"]) (.var "y"), .param 0 "p"]) := by
  simp only [Expr.plain, Expr.plains, Name.plain]
  decide

/-- A name may end with a newline; it is shown as such. -/
example : (Expr.var "x\n").reprText = "Variable('x\\n')".toList ∧ Name.plain "x\n" := ⟨by decide +kernel, C70_names (by decide)⟩

/-- Parameters of the same name with different values look the same. -/
example : (Expr.param 0 "p").reprText = (Expr.param 1 "p").reprText ∧
    (Expr.param 0 "p").eval (fun i => i) [] ≠ (Expr.param 1 "p").eval (fun i => i) [] := ⟨rfl, by simp [Expr.eval]⟩

example : (CKind.allDiff ["y", "x", "y"]).reprText = "AllDifferentConstraint(['x', 'y'])".toList := by decide +kernel

end Satisfy.Props
