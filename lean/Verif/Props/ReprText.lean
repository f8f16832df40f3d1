import Verif.Props.Repr
import Verif.Props.Transcripts
import Mathlib.Data.List.Forall2

/-!
# C70: the text of the `repr` of an expression, with the names of the classes spelled out
-/

namespace Satisfy.Props
open Satisfy

/-- The classes of the operators. -/
def unaryClasses : List (UOp × String) := [(.neg, "Neg"), (.abs, "Abs"), (.not, "Not")]

def binaryClasses : List (BOp × String) :=
  [(.add, "Add"), (.sub, "Sub"), (.mul, "Mul"), (.div, "Div"), (.mod, "Mod"), (.pow, "Pow"), (.eq, "Eq"), (.ne, "Ne"), (.lt, "Lt"),
    (.le, "Le"), (.gt, "Gt"), (.ge, "Ge"), (.and, "And"), (.or, "Or")]

/-- A name between quotes; a newline at its end, as a name may have, is shown by a backslash and an `n`. -/
def Quoted (x : Name) (t : List Char) : Prop :=
  ('\n' ∉ x.toList ∧ t = "'".toList ++ x.toList ++ "'".toList) ∨
    ∃ s, '\n' ∉ s ∧ x.toList = s ++ ['\n'] ∧ t = "'".toList ++ s ++ "\\n'".toList

/-- The text `t` shows the expression: the class, and between brackets what it is made of. -/
inductive ShowsE : Expr → List Char → Prop
  | const (v : Int) : ShowsE (.const v) ("Const(".toList ++ (toString v).toList ++ ")".toList)
  | var {x : Name} {t : List Char} : Quoted x t → ShowsE (.var x) ("Variable(".toList ++ t ++ ")".toList)
  | param {i : Nat} {x : Name} {t : List Char} : Quoted x t → ShowsE (.param i x) ("Parameter(".toList ++ t ++ ")".toList)
  | un {op : UOp} {cls : String} {e : Expr} {t : List Char} : (op, cls) ∈ unaryClasses → ShowsE e t →
      ShowsE (.un op e) (cls.toList ++ "(".toList ++ t ++ ")".toList)
  | bin {op : BOp} {cls : String} {l r : Expr} {t u : List Char} : (op, cls) ∈ binaryClasses → ShowsE l t → ShowsE r u →
      ShowsE (.bin op l r) (cls.toList ++ "(".toList ++ t ++ ", ".toList ++ u ++ ")".toList)
  | sum {c : Int} {es : List Expr} {ts : List (List Char)} : es.length = ts.length → (∀ p ∈ es.zip ts, ShowsE p.1 p.2) →
      ShowsE (.acc .sum c es) ("Sum(".toList ++ ", ".toList.intercalate ts ++ ", const=".toList ++ (toString c).toList ++ ")".toList)
  | prod {c : Int} {es : List Expr} {ts : List (List Char)} : es.length = ts.length → (∀ p ∈ es.zip ts, ShowsE p.1 p.2) →
      ShowsE (.acc .prod c es) ("Prod(".toList ++ ", ".toList.intercalate ts ++ ", const=".toList ++ (toString c).toList ++ ")".toList)

theorem intText_toString (v : Int) : intText v = (toString v).toList := by
  unfold intText
  cases v with
  | ofNat n =>
    rw [if_neg (by simp), natStr_toString]
    rfl
  | negSucc n =>
    rw [if_pos (by omega), natStr_toString]
    change _ = ("-" ++ Nat.repr (n + 1)).toList
    rw [String.toList_append]
    rfl

/-- A name without quotes and backslashes, and without newlines except at its end. -/
def Showable (x : Name) : Prop := '\'' ∉ x.toList ∧ '\\' ∉ x.toList ∧ '\n' ∉ x.toList.dropLast

/-- The names a model accepts are such names. -/
theorem C70_names_text {x : Name} (h : checkName x = true) : Showable x := by
  refine ⟨(C70_names h).1, (C70_names h).2, ?_⟩
  have ha : ∀ cs : List Char, (match cs with
      | [] => false
      | c :: cs => c.isAlpha && cs.all isWord) = true → '\n' ∉ cs := by
    intro cs h hc
    match cs with
    | [] => cases hc
    | d :: cs =>
      simp only [Bool.and_eq_true, List.all_eq_true] at h
      rcases List.mem_cons.1 hc with rfl | hc
      · exact absurd h.1 (by decide)
      · exact absurd (h.2 _ hc) (by decide)
  unfold checkName at h
  by_cases hl : x.toList.getLast? = some '\n'
  · simp only [hl, if_true] at h
    exact ha _ h
  · simp only [hl, if_false] at h
    exact fun hm => ha _ h (List.dropLast_subset _ hm)

/-- So are the names a model invents. -/
theorem C70_invented_text (n : Nat) : Showable ("_v" ++ toString n) ∧ Showable ("_p" ++ toString n) := by
  have hd : '\n' ∉ (toString n).toList := fun h => absurd (toString_word n _ h) (by decide)
  have := C70_invented n
  refine ⟨⟨this.1.1, this.1.2, fun h => ?_⟩, this.2.1, this.2.2, fun h => ?_⟩
  all_goals
    have := List.dropLast_subset _ h
    rw [String.toList_append, List.mem_append] at this
    rcases this with h | h
    · exact absurd h (by decide)
    · exact hd h

theorem quoted_of {x : Name} (h : Showable x) : Quoted x (reprName x) := by
  have hw : ∀ s : List Char, '\n' ∉ s → s.flatMap (fun c => if c = '\n' then ['\\', 'n'] else [c]) = s := by
    intro s hs
    induction s with
    | nil => rfl
    | cons c s ih =>
      rw [List.flatMap_cons, ih (fun h => hs (List.mem_cons_of_mem _ h)), if_neg (fun h => hs (by simp [h]))]
      rfl
  by_cases hl : x.toList.getLast? = some '\n'
  · obtain ⟨ys, hys⟩ := List.getLast?_eq_some_iff.1 hl
    have h3 := h.2.2
    rw [hys, List.dropLast_concat] at h3
    refine .inr ⟨ys, h3, hys, ?_⟩
    rw [reprName, hys, List.flatMap_append, hw _ h3]
    simp
  · have h3 : '\n' ∉ x.toList := by
      intro hm
      rcases List.eq_nil_or_concat x.toList with h0 | ⟨ys, c, hys⟩
      · rw [h0] at hm
        cases hm
      · have h4 := h.2.2
        rw [hys, List.concat_eq_append] at hl hm h4
        rw [List.dropLast_concat] at h4
        rcases List.mem_append.1 hm with hm | hm
        · exact h4 hm
        · rw [List.mem_singleton] at hm
          exact hl (by simp [← hm])
    exact .inl ⟨h3, by rw [reprName, hw _ h3]; simp⟩

mutual
/-- Every name in an expression is such a name. -/
def proper : Expr → Prop
  | .const _ => True
  | .var x => Showable x
  | .param _ n => Showable n
  | .un _ e => proper e
  | .bin _ l r => proper l ∧ proper r
  | .acc _ _ es => propers es
def propers : List Expr → Prop
  | [] => True
  | e :: es => proper e ∧ propers es
end

theorem paren_eq (cls inner : List Char) : callText cls inner = cls ++ "(".toList ++ inner ++ ")".toList := by
  simp [callText]

mutual
theorem shows_of : ∀ e : Expr, proper e → ShowsE e e.reprText
  | .const v, _ => by
    rw [Expr.reprText, paren_eq, intText_toString]
    exact .const v
  | .var x, h => by
    rw [Expr.reprText, paren_eq]
    exact .var (quoted_of h)
  | .param i n, h => by
    rw [Expr.reprText, paren_eq]
    exact .param (quoted_of h)
  | .un op e, h => by
    rw [Expr.reprText, paren_eq]
    have := shows_of e h
    cases op
    · exact .un (cls := "Neg") (by decide) this
    · exact .un (cls := "Abs") (by decide) this
    · exact .un (cls := "Not") (by decide) this
  | .bin op l r, h => by
    rw [Expr.reprText, paren_eq]
    have hl := shows_of l h.1
    have hr := shows_of r h.2
    have e : ∀ c : List Char, c ++ "(".toList ++ joinChars [',', ' '] [l.reprText, r.reprText] ++ ")".toList =
        c ++ "(".toList ++ l.reprText ++ ", ".toList ++ r.reprText ++ ")".toList := by
      intro c
      simp [joinChars]
    rw [e]
    cases op
    · exact .bin (cls := "Add") (by decide) hl hr
    · exact .bin (cls := "Mul") (by decide) hl hr
    · exact .bin (cls := "Sub") (by decide) hl hr
    · exact .bin (cls := "Div") (by decide) hl hr
    · exact .bin (cls := "Mod") (by decide) hl hr
    · exact .bin (cls := "Pow") (by decide) hl hr
    · exact .bin (cls := "Eq") (by decide) hl hr
    · exact .bin (cls := "Ne") (by decide) hl hr
    · exact .bin (cls := "Lt") (by decide) hl hr
    · exact .bin (cls := "Le") (by decide) hl hr
    · exact .bin (cls := "Gt") (by decide) hl hr
    · exact .bin (cls := "Ge") (by decide) hl hr
    · exact .bin (cls := "And") (by decide) hl hr
    · exact .bin (cls := "Or") (by decide) hl hr
  | .acc k c es, h => by
    rw [Expr.reprText, paren_eq, joinChars_intercalate, intText_toString]
    have hs := shows_all es h
    have hl : es.length = (Expr.reprTexts es).length := by rw [reprTexts_eq, List.length_map]
    cases k
    · have := ShowsE.sum (c := c) hl hs
      simp only [List.append_assoc] at this ⊢
      exact this
    · have := ShowsE.prod (c := c) hl hs
      simp only [List.append_assoc] at this ⊢
      exact this
theorem shows_all : ∀ es : List Expr, propers es → ∀ p ∈ es.zip (Expr.reprTexts es), ShowsE p.1 p.2
  | [], _, p, hp => by simp [Expr.reprTexts] at hp
  | e :: es, h, p, hp => by
    rw [Expr.reprTexts, List.zip_cons_cons] at hp
    rcases List.mem_cons.1 hp with rfl | hp
    · exact shows_of e h.1
    · exact shows_all es h.2 p hp
end

/-- The `repr` of an expression is the name of its class with, between brackets, the name, the value, or the operands in their order and the constant of an
accumulation. -/
theorem C70_text {e : Expr} (h : proper e) : ShowsE e e.reprText := shows_of e h

/-- The text `t` shows the constraint: its class and its truth value, its expression, or the list of its variables, each once, in the order of their names. -/
inductive ShowsC : CKind → List Char → Prop
  | isTrue : ShowsC (.const true) "ConstConstraint(True)".toList
  | isFalse : ShowsC (.const false) "ConstConstraint(False)".toList
  | expr {e : Expr} {t : List Char} : ShowsE e t → ShowsC (.expr e) ("ExpressionConstraint(".toList ++ t ++ ")".toList)
  | allDiff {l names : List Name} {ts : List (List Char)} : (∀ x, x ∈ names ↔ x ∈ l) → names.Nodup → names.Pairwise (· ≤ ·) →
      List.Forall₂ Quoted names ts → ShowsC (.allDiff l) ("AllDifferentConstraint([".toList ++ ", ".toList.intercalate ts ++ "])".toList)

/-- The names in a constraint can be shown. -/
def properC : CKind → Prop
  | .const _ => True
  | .expr e => proper e
  | .allDiff l => ∀ x ∈ l, Showable x

theorem C70_constraint_text {k : CKind} (h : properC k) : ShowsC k k.reprText := by
  cases k with
  | const b =>
    cases b
    · exact .isFalse
    · exact .isTrue
  | expr e =>
    rw [CKind.reprText, paren_eq]
    exact .expr (C70_text h)
  | allDiff l =>
    have e : (CKind.allDiff l).reprText = "AllDifferentConstraint([".toList ++ ", ".toList.intercalate ((sortNames (dedup l)).map reprName) ++ "])".toList := by
      rw [CKind.reprText, joinChars_intercalate]
      simp [callText]
    have hm : ∀ x, x ∈ sortNames (dedup l) ↔ x ∈ l := fun x => by rw [mem_sortNames, mem_dedup]
    rw [e]
    refine .allDiff hm ((sortNames_perm _).nodup_iff.2 (nodup_dedup l)) (sortNames_sorted _) ?_
    exact List.forall₂_map_right_iff.2 (List.forall₂_same.2 (fun x hx => quoted_of (h x ((hm x).1 hx))))

example : proper (.bin .and (.bin .le (.var "x") (.const (-3))) (.un .not (.param 0 "p\n"))) := by
  simp only [proper, Showable]
  decide

example : (Expr.bin .and (.bin .le (.var "x") (.const (-3))) (.un .not (.param 0 "p\n"))).reprText =
    "And(Le(Variable('x'), Const(-3)), Not(Parameter('p\\n')))".toList := by decide +kernel

end Satisfy.Props
