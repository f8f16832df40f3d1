import Verif.Props.Relation
import Verif.SpecCondition
/-!
# Cryptarithms with several conditions: C78

`ord` is the iteration order of the set of letters.
-/

namespace Satisfy
open Satisfy.Props

/-! ## Left associative operators below `+` -/

theorem Phrase.chainLow {t L a m} (h : Phrase t L a) (hm : m = 4 ∨ m = 5) (hL : m + 1 ≤ L) : Chain m t a where
  pos := h.pos
  h2 := h.h2 (by omega)
  ex := by
    have hp := h.pos
    refine ⟨1, 14 * t.length - 1, by omega, by omega, by omega, ?_⟩
    intro r hs f hf
    rw [pE_left (by omega)]
    simp [h.at_level' hL (by omega) hs f hf]

theorem Chain.opLow {m tl tr al ar R o} (hm : m = 4 ∨ m = 5) (ho : o.level = some m) (hl : Chain m tl al) (hr : Phrase tr R ar) (hR : m + 1 ≤ R) :
    Chain m (tl ++ .op o :: tr) (mkBin o al ar) ∧ Phrase (tl ++ .op o :: tr) m (mkBin o al ar) := by
  have h1 := hl.pos
  have h2 := hr.pos
  have hn : headNot (tl ++ .op o :: tr) .not := headNot_append hl.h2 h1
  obtain ⟨k, N, hN, hk, hb, hp⟩ := hl.ex
  have key : ∀ r, stopB (m + 1) r = true → ∀ f, max N (14 * tr.length) ≤ f →
      pE (f + (k + 1)) m (tl ++ .op o :: tr ++ r) = pLoop f m (mkBin o al ar) r := by
    intro r hs f hf
    have e1 := hp (.op o :: tr ++ r) (by simp [stopB, ho]) (f + 1) (by omega)
    have e2 := hr.at_level hR hs f (by omega)
    rw [List.append_assoc, List.cons_append, show f + (k + 1) = f + 1 + k by omega]
    rw [List.cons_append] at e1
    rw [e1]
    simp [pLoop, ho, e2]
  refine ⟨⟨by simp; omega, hn, k + 1, max N (14 * tr.length), by omega, by simp; omega, by simp; omega, key⟩, ?_⟩
  refine ⟨by omega, by simp; omega, ?_, fun _ => hn, fun h => by omega⟩
  intro r hs f hf
  simp only [List.length_append, List.length_cons] at hf
  have := key r (stopB_mono (by omega) hs) (f - (k + 1)) (by omega)
  rw [show f - (k + 1) + (k + 1) = f by omega] at this
  obtain ⟨g, hg⟩ : ∃ g, f - (k + 1) = g + 1 := ⟨f - (k + 1) - 1, by omega⟩
  rw [this, hg]
  exact pLoop_stop hs

/-! ## Values -/

/-- The object has the value `f`; with `k` it can be compiled, with `s` also as an operand of `&`. -/
structure DenL (k s : Prop) (xs : List Name) (o : Obj) (f : (Name → Int) → Int) : Prop where
  vars : ∀ x ∈ objVars o, x ∈ xs
  lvl : k → ∀ ρ, ∃ L, pyLvl ρ (coerce o) = some L ∧ (s → 8 ≤ L)
  eval : ∀ ρ σ, (∀ x ∈ xs, Dict.get? σ x ≠ none) → o.eval ρ σ = .ok (f (val σ))
  params : ∀ i, i ∉ objParams o

section
variable {k s : Prop} {xs : List Name} {a b : Obj} {f g : (Name → Int) → Int}

theorem Den.denL (h : Den xs a f) : DenL k s xs a f :=
  ⟨h.vars, fun _ ρ => (nice_lvl (ρ := ρ) h.nice).imp (fun _ h => ⟨h.1, fun _ => h.2⟩), h.eval, h.params⟩

theorem DenL.safe {ρ : Store} (h : DenL k s xs a f) (hn : ∀ x ∈ xs, NameOk x) (hk : k) : (coerce a).Safe ρ := by
  obtain ⟨L, hL, _⟩ := h.lvl hk ρ
  exact ⟨by rw [hL]; rfl, fun x hx => hn x (h.vars x hx)⟩

theorem DenL.total (h : DenL k s xs a f) : (coerce a).Total := by
  intro ρ σ hσ
  refine ⟨f (val σ), ?_⟩
  have h1 := h.eval ρ (σ ++ xs.map (fun x => (x, (0 : Int)))) (by
    intro x hx
    rw [Dict.get?_append]
    have : ∃ v, Dict.get? (xs.map (fun x => (x, (0 : Int)))) x = some v :=
      Dict.get?_isSome_of_mem_keys (by simp [Dict.keys, Function.comp_def, hx])
    obtain ⟨v, hv⟩ := this
    cases Dict.get? σ x <;> simp [hv])
  rw [val_append_zero] at h1
  rw [← h1, ← coerce_eval]
  apply eval_congr
  intro x hx
  rw [Dict.get?_append]
  cases hg : Dict.get? σ x with
  | none => exact absurd hg (hσ x hx)
  | some v => rfl

theorem DenL.imp {t : Prop} (h : DenL k s xs a f) (ht : t → s) : DenL k t xs a f :=
  ⟨h.vars, fun hk ρ => (h.lvl hk ρ).imp (fun _ h => ⟨h.1, fun x => h.2 (ht x)⟩), h.eval, h.params⟩

theorem mem_params_or (a b : Obj) (x : Nat) (h : x ∈ objParams (a.or b)) : x ∈ objParams a ∨ x ∈ objParams b := by
  unfold Obj.or at h
  split at h
  · simp [objParams, coerce, Expr.params] at h
  · simpa [objParams, coerce] using h
  · unfold Expr.pyOr at h
    split at h
    · simp [objParams, coerce, Expr.params] at h
    · simpa [objParams, coerce] using h

/-- One of the two is an expression, but they are not two constants. -/
def Open (a b : Obj) : Prop := ((∃ e, a = .expr e) ∨ ∃ e, b = .expr e) ∧ NotConsts a b

theorem and_expr (h : Open a b) : a.and b = .expr (.bin .and (coerce a) (coerce b)) := by
  obtain ⟨h1, h2⟩ := h
  unfold Obj.and
  split
  · rcases h1 with ⟨_, h1⟩ | ⟨_, h1⟩ <;> cases h1
  · rfl
  · unfold Expr.pyAnd
    split
    · exact absurd ⟨⟨_, rfl⟩, ⟨_, rfl⟩⟩ h2
    · rfl

theorem or_expr (h : Open a b) : a.or b = .expr (.bin .or (coerce a) (coerce b)) := by
  obtain ⟨h1, h2⟩ := h
  unfold Obj.or
  split
  · rcases h1 with ⟨_, h1⟩ | ⟨_, h1⟩ <;> cases h1
  · rfl
  · unfold Expr.pyOr
    split
    · exact absurd ⟨⟨_, rfl⟩, ⟨_, rfl⟩⟩ h2
    · rfl

theorem DenL.and {s t : Prop} (ha : DenL k s xs a f) (hb : DenL k t xs b g) (hs : k → s) (ht : k → t) (hab : Open a b) :
    DenL k True xs (a.and b) (fun s => if f s ≠ 0 then g s else f s) := by
  refine ⟨fun x hx => (C03_vars_and a b x hx).elim (ha.vars x) (hb.vars x), fun hk ρ => ?_,
    fun ρ σ h => C01_and (ha.eval ρ σ h) (hb.eval ρ σ h) hab.1, fun i hi => (mem_params_and a b i hi).elim (ha.params i) (hb.params i)⟩
  obtain ⟨L, h1, h2⟩ := ha.lvl hk ρ
  obtain ⟨R, h3, h4⟩ := hb.lvl hk ρ
  have h2 := h2 (hs hk)
  have h4 := h4 (ht hk)
  rw [and_expr hab]
  refine ⟨10, ?_, fun _ => by omega⟩
  simp only [coerce, pyLvl] at h1 h3 ⊢
  rw [h1, h3]
  show (if BOp.and = .or then some 0 else if 2 ≤ L ∧ 2 ≤ R then some 10 else none) = some 10
  rw [if_neg (by decide), if_pos ⟨by omega, by omega⟩]

theorem DenL.or {s t : Prop} (ha : DenL k s xs a f) (hb : DenL k t xs b g) (hab : Open a b) :
    DenL k False xs (a.or b) (fun s => if f s ≠ 0 then f s else g s) := by
  refine ⟨fun x hx => (C03_vars_or a b x hx).elim (ha.vars x) (hb.vars x), fun hk ρ => ?_,
    fun ρ σ h => C01_or (ha.eval ρ σ h) (hb.eval ρ σ h) hab.1, fun i hi => (mem_params_or a b i hi).elim (ha.params i) (hb.params i)⟩
  obtain ⟨L, h1, h2⟩ := ha.lvl hk ρ
  obtain ⟨R, h3, h4⟩ := hb.lvl hk ρ
  rw [or_expr hab]
  refine ⟨0, ?_, fun h => h.elim⟩
  simp only [coerce, pyLvl] at h1 h3 ⊢
  rw [h1, h3]
  simp

end

/-- Adding a condition. -/
theorem BuiltC.addDenL {k : Prop} {ρ : Store} {w : World} {vs : Dict (List Int)} {C : Subst → Prop} (hb : BuiltC k ρ w vs C) {s : Prop} {xs : List Name} {o : Obj}
    {f : (Name → Int) → Int} (h : DenL k s xs o f) (hx : ∀ x ∈ xs, x ∈ vs.keys) (hn : ∀ x ∈ xs, NameOk x) :
    ∃ w', addConstraint o.toArg w = (w', .ok ()) ∧ BuiltC k ρ w' vs (fun σ => C σ ∧ f (val σ) ≠ 0) := by
  obtain ⟨w', h1, h2⟩ := hb.addObjC o (fun x hx' => hx x (h.vars x hx')) (h.safe hn) h.total
    (List.eq_nil_iff_forall_not_mem.2 h.params)
  refine ⟨w', h1, h2.congr (fun σ hσ => ?_)⟩
  rw [h.eval ρ σ (fun x hx' => by
    obtain ⟨d, hd⟩ := Dict.get?_isSome_of_mem_keys (hx x hx')
    obtain ⟨v, _, hv⟩ := hσ _ (get?_mem hd)
    rw [hv]; simp)]
  simp

end Satisfy

namespace Satisfy.Props
open Satisfy

/-! ## Running it -/

/-- The object is what the kind says. -/
def KindOk (isBool : Bool) : CKindOf → Obj → Prop
  | .truth, o => (o = .int 0 ∨ o = .int 1) ∧ isBool = true
  | .number, o => (o = .int 0 ∨ o = .int 1) ∧ isBool = false
  | .formula, o => ∃ e, o = .expr e ∧ ∀ n, e ≠ .const n

/-- The condition, evaluated. -/
structure CondRuns (env : List (Name × Expr)) (xs : List Name) (f : CForm) (a : Ast) (o : Obj) : Prop where
  run : a.run env = .ok o
  kind : KindOk (a.isBool env) f.kind o
  value : ∀ k : Prop, (k → f.Clean) → ∃ v, DenL k (¬ f.IsOr) xs o v ∧
    ∀ σ : Subst, (∀ x ∈ xs, Dict.get? σ x ≠ none) → (v (val σ) ≠ 0 ↔ f.Holds (fun c => val σ (letterName c)))

theorem cmp_runs {env : List (Name × Expr)} {xs : List Name} {l r : CTree} {p p' : List Tok × Ast} (q : CRel) (h : RunsTo env xs l p)
    (h' : RunsTo env xs r p') : ∃ o, CondRuns env xs (.cmp l q r) (.cmp q.tok p.2 p'.2) o := by
  obtain ⟨o, r1, d1, f1⟩ := h
  obtain ⟨o', r2, d2, f2⟩ := h'
  have hform : ∀ {o : Obj}, FoldsTo .formula o → (∃ e, o = .expr e) ∧ ∀ m, o ≠ .expr (.const m) := by
    rintro o ⟨e, rfl, he⟩
    exact ⟨⟨e, rfl⟩, fun m hm => by cases hm; exact he.not_const m rfl⟩
  have h01 : ∀ b : Bool, ofBool b = 0 ∨ ofBool b = 1 := by decide
  have key : ∀ (c : Cmp) (e : Expr) (o : Obj), NotConsts (.expr e) o → ∃ e', e.pyCmp c o = .expr e' ∧ ∀ n, e' ≠ .const n := by
    intro c e o hn
    unfold Expr.pyCmp
    split
    · exact absurd ⟨⟨_, rfl⟩, ⟨_, rfl⟩⟩ hn
    · exact ⟨_, rfl, by simp⟩
  have gen : ∀ {a b : Obj}, NotConsts a b → ((∃ e, a = .expr e) ∨ ∃ e, b = .expr e) → ∃ e', Obj.cmp q.cmp a b = .expr e' ∧ ∀ n, e' ≠ .const n := by
    intro a b hn hx
    unfold Obj.cmp
    split
    · rcases hx with ⟨_, hx⟩ | ⟨_, hx⟩ <;> cases hx
    · exact key _ _ _ (.right (by simp))
    · exact key _ _ _ (.left (by simp))
    · exact key _ _ _ hn
  refine ⟨Obj.cmp q.cmp o o', (arg_cmp env q r1 r2).2, ?_, fun _ _ => ⟨_, (Den.cmp q.cmp d1.den d2.den).denL, fun σ _ => ?_⟩⟩
  · rw [CForm.kind]
    cases hf : l.folded <;> cases hg : r.folded <;> rw [hf] at f1 <;> rw [hg] at f2 <;> simp only [relKind, KindOk]
    case number.number m n =>
      cases f1; cases f2
      refine ⟨?_, by simp only [Ast.isBool, r1, r2]⟩
      simpa [Obj.cmp] using h01 _
    case constant.constant m n =>
      cases f1; cases f2
      refine ⟨?_, by simp only [Ast.isBool, r1, r2]⟩
      simpa [Obj.cmp, Expr.pyCmp] using h01 _
    case number.constant m n => cases f1; cases f2; exact gen (.left (by simp)) (.inr ⟨_, rfl⟩)
    case constant.number m n => cases f1; cases f2; exact gen (.right (by simp)) (.inl ⟨_, rfl⟩)
    case number.formula m => exact gen (.right (hform f2).2) (.inr (hform f2).1)
    case constant.formula m => exact gen (.right (hform f2).2) (.inr (hform f2).1)
    all_goals exact gen (.left (hform f1).2) (.inl (hform f1).1)
  · rw [CForm.Holds, ← q.holds_iff]
    cases Cmp.holds q.cmp _ _ <;> simp

/-- Two conditions: an expression, or a number. -/
theorem kind_join {k k' : CKindOf} {a b : Obj} {i j : Bool} (h : KindOk i k a) (h' : KindOk j k' b) :
    (k.join k' = .formula ∧ Open a b) ∨ (k.join k' ≠ .formula ∧ (a = .int 0 ∨ a = .int 1) ∧ (b = .int 0 ∨ b = .int 1) ∧
      (k.join k' = .truth ∧ (i && j) = true ∨ k.join k' = .number ∧ (i && j) = false)) := by
  cases k with
  | formula =>
    obtain ⟨e, rfl, he⟩ := h
    exact .inl ⟨by cases k' <;> rfl, .inl ⟨_, rfl⟩, .left (fun m hm => by cases hm; exact he m rfl)⟩
  | truth => cases k' with
    | formula =>
      obtain ⟨e, rfl, he⟩ := h'
      exact .inl ⟨rfl, .inr ⟨_, rfl⟩, .right (fun m hm => by cases hm; exact he m rfl)⟩
    | truth => exact .inr ⟨nofun, h.1, h'.1, .inl ⟨rfl, by rw [h.2, h'.2]; rfl⟩⟩
    | number => exact .inr ⟨nofun, h.1, h'.1, .inr ⟨rfl, by rw [h.2, h'.2]; rfl⟩⟩
  | number => cases k' with
    | formula =>
      obtain ⟨e, rfl, he⟩ := h'
      exact .inl ⟨rfl, .inr ⟨_, rfl⟩, .right (fun m hm => by cases hm; exact he m rfl)⟩
    | truth => exact .inr ⟨nofun, h.1, h'.1, .inr ⟨rfl, by rw [h.2, h'.2]; rfl⟩⟩
    | number => exact .inr ⟨nofun, h.1, h'.1, .inr ⟨rfl, by rw [h.2, h'.2]; rfl⟩⟩

theorem int_value {k s : Prop} {xs : List Name} {n : Int} {v : (Name → Int) → Int} (h : DenL k s xs (.int n) v) {σ : Subst}
    (hσ : ∀ x ∈ xs, Dict.get? σ x ≠ none) : v (val σ) = n := by
  have h1 := h.eval (fun _ => 0) σ hσ
  simpa [Obj.eval] using h1.symm

theorem DenL.int {k s : Prop} {xs : List Name} (n : Int) : DenL k s xs (.int n) (fun _ => n) := (Den.int n).denL

theorem and_runs {env : List (Name × Expr)} {xs : List Name} {f g : CForm} {a b : Ast} (h : ∃ o, CondRuns env xs f a o) (h' : ∃ o, CondRuns env xs g b o) :
    ∃ o, CondRuns env xs (.and f g) (.bin .amp a b) o := by
  obtain ⟨o, h⟩ := h
  obtain ⟨o', h'⟩ := h'
  have hrun : Ast.run env (.bin .amp a b) = .ok (o.and o') := by simp [Ast.run, h.run, h'.run, OpTok.applyObj]
  have hb : Ast.isBool env (.bin .amp a b) = (a.isBool env && b.isBool env) := by simp [Ast.isBool]
  rcases kind_join h.kind h'.kind with ⟨hk, ho⟩ | ⟨hk, h1, h2, hk'⟩
  · refine ⟨_, hrun, ?_, fun k hc => ?_⟩
    · rw [CForm.kind, hk, and_expr ho]; exact ⟨_, rfl, by simp⟩
    · obtain ⟨v, d1, v1⟩ := h.value k (fun x => (hc x).1)
      obtain ⟨w, d2, v2⟩ := h'.value k (fun x => (hc x).2.1)
      refine ⟨_, (d1.and d2 (fun x => (hc x).2.2.1) (fun x => (hc x).2.2.2) ho).imp (fun _ => trivial), fun σ hσ => ?_⟩
      rw [CForm.Holds, ← v1 σ hσ, ← v2 σ hσ]
      split <;> simp_all
  · refine ⟨_, hrun, ?_, fun k hc => ?_⟩
    · rw [CForm.kind, hb]
      have : o.and o' = .int 0 ∨ o.and o' = .int 1 := by rcases h1 with rfl | rfl <;> rcases h2 with rfl | rfl <;> first | exact .inl rfl | exact .inr rfl
      rcases hk' with ⟨e1, e2⟩ | ⟨e1, e2⟩ <;> rw [e1, e2] <;> exact ⟨this, rfl⟩
    · obtain ⟨v, d1, v1⟩ := h.value k (fun x => (hc x).1)
      obtain ⟨w, d2, v2⟩ := h'.value k (fun x => (hc x).2.1)
      rcases h1 with rfl | rfl <;> rcases h2 with rfl | rfl <;>
        refine ⟨_, DenL.int _, fun σ hσ => ?_⟩ <;> rw [CForm.Holds, ← v1 σ hσ, ← v2 σ hσ, int_value d1 hσ, int_value d2 hσ] <;> decide

theorem or_runs {env : List (Name × Expr)} {xs : List Name} {f g : CForm} {a b : Ast} (h : ∃ o, CondRuns env xs f a o) (h' : ∃ o, CondRuns env xs g b o) :
    ∃ o, CondRuns env xs (.or f g) (.bin .bar a b) o := by
  obtain ⟨o, h⟩ := h
  obtain ⟨o', h'⟩ := h'
  have hrun : Ast.run env (.bin .bar a b) = .ok (o.or o') := by simp [Ast.run, h.run, h'.run, OpTok.applyObj]
  have hb : Ast.isBool env (.bin .bar a b) = (a.isBool env && b.isBool env) := by simp [Ast.isBool]
  rcases kind_join h.kind h'.kind with ⟨hk, ho⟩ | ⟨hk, h1, h2, hk'⟩
  · refine ⟨_, hrun, ?_, fun k hc => ?_⟩
    · rw [CForm.kind, hk, or_expr ho]; exact ⟨_, rfl, by simp⟩
    · obtain ⟨v, d1, v1⟩ := h.value k (fun x => (hc x).1)
      obtain ⟨w, d2, v2⟩ := h'.value k (fun x => (hc x).2)
      refine ⟨_, (d1.or d2 ho).imp (fun hn => hn hk), fun σ hσ => ?_⟩
      rw [CForm.Holds, ← v1 σ hσ, ← v2 σ hσ]
      split <;> simp_all
  · refine ⟨_, hrun, ?_, fun k hc => ?_⟩
    · rw [CForm.kind, hb]
      have : o.or o' = .int 0 ∨ o.or o' = .int 1 := by rcases h1 with rfl | rfl <;> rcases h2 with rfl | rfl <;> first | exact .inl rfl | exact .inr rfl
      rcases hk' with ⟨e1, e2⟩ | ⟨e1, e2⟩ <;> rw [e1, e2] <;> exact ⟨this, rfl⟩
    · obtain ⟨v, d1, v1⟩ := h.value k (fun x => (hc x).1)
      obtain ⟨w, d2, v2⟩ := h'.value k (fun x => (hc x).2)
      rcases h1 with rfl | rfl <;> rcases h2 with rfl | rfl <;>
        refine ⟨_, DenL.int _, fun σ hσ => ?_⟩ <;> rw [CForm.Holds, ← v1 σ hσ, ← v2 σ hσ, int_value d1 hσ, int_value d2 hσ] <;> decide

/-! ## The whole text -/

/-- What the text of a condition becomes. -/
structure CondDone (l : Nat) (U : List Char) (f : CForm) (x : List Char) (toks : List Tok) (a : Ast) : Prop where
  expand : ∀ r, NoWord r → expandGo (U ++ r) [] = x ++ expandGo r []
  words : ∀ r, NoWord r → wordsOf (U ++ r) [] = f.words ++ wordsOf r []
  alnum : ∀ w ∈ f.words, ∀ c ∈ w, isWordChar c = true
  lex : ∀ r, lexGo (x ++ r) .start = (lexGo r .start).map (toks ++ ·)
  phrase : ∃ L, l ≤ L ∧ Phrase toks L a
  chain : l = 4 ∨ l = 5 → Chain l toks a
  run : ∀ env xs, (∀ w ∈ f.words, ∀ c ∈ w, isDig c = false → LetterVar env xs c) → ∃ o, CondRuns env xs f a o

theorem cond_done {l : Nat} {s : List Char} {f : CForm} (h : CCond l s f) : ∃ x toks a, CondDone l (s.map Char.toUpper) f x toks a := by
  induction h with
  | @cmp s t l q r hs ht =>
    obtain ⟨x, toks, ast, h⟩ := text_done hs
    obtain ⟨x', toks', ast', h'⟩ := text_done ht
    obtain ⟨L, hL, hp⟩ := h.phrase
    obtain ⟨L', hL', hp'⟩ := h'.phrase
    have hno : ∀ z, NoWord (q.text ++ z) := by
      intro z
      obtain ⟨c, cs, hc⟩ := q.text_head
      rw [hc, List.cons_append]
      exact noWord_cons (q.text_noWord c (by rw [hc]; simp)) _
    have hup : ∀ r : List Char, ('(' :: (s ++ q.text ++ t) ++ [')']).map Char.toUpper ++ r =
        '(' :: (s.map Char.toUpper ++ (q.text ++ (t.map Char.toUpper ++ ')' :: r))) := by
      intro r
      simp only [List.map_append, List.map_cons, List.map_nil, q.text_upper, List.append_assoc, List.cons_append, List.nil_append,
        show Char.toUpper '(' = '(' from rfl, show Char.toUpper ')' = ')' from rfl]
    refine ⟨'(' :: (x ++ q.text ++ x') ++ [')'], .lpar :: (toks ++ relToks [(q, toks', ast')]) ++ [.rpar], .cmp q.tok ast ast', ?_, ?_, ?_, ?_,
      ⟨10, by omega, .paren (rels_phrase hp (by omega) [(q, toks', ast')] (by simpa using ⟨L', by omega, hp'⟩) (by simp))⟩, by omega, ?_⟩
    · intro r hr
      rw [hup, (expand_cons (c := '(') rfl _).1, h.expand _ (hno _), (expand_text q.text_noWord _).1, h'.expand _ (noWord_cons rfl r),
        (expand_cons (c := ')') rfl r).1]
      simp
    · intro r hr
      rw [hup, (expand_cons (c := '(') rfl _).2, h.words _ (hno _), (expand_text q.text_noWord _).2, h'.words _ (noWord_cons rfl r),
        (expand_cons (c := ')') rfl r).2]
      simp [CForm.words]
    · intro w hw
      rcases List.mem_append.1 hw with hw | hw
      · exact (h.alnum w hw).2
      · exact (h'.alnum w hw).2
    · intro r
      obtain ⟨c, cs, hx', hc⟩ := h'.head
      simp only [List.cons_append, List.append_assoc, List.nil_append]
      rw [lex_tok (t := .lpar) rfl, h.lex, lex_rel q ⟨c, cs ++ ')' :: r, by rw [hx']; rfl, hc⟩, h'.lex, lex_tok (t := .rpar) rfl]
      cases lexGo r .start <;> simp [relToks]
    · intro env xs henv
      exact cmp_runs (p := (toks, ast)) (p' := (toks', ast')) q (h.run env xs (fun w hw => henv w (List.mem_append_left _ hw)))
        (h'.run env xs (fun w hw => henv w (List.mem_append_right _ hw)))
  | @paren s f _ ih =>
    obtain ⟨x, toks, ast, h⟩ := ih
    obtain ⟨L, _, hL⟩ := h.phrase
    refine ⟨'(' :: x ++ [')'], .lpar :: toks ++ [.rpar], ast, ?_, ?_, h.alnum, ?_, ⟨10, by omega, .paren hL.zero⟩, by omega, h.run⟩
    · intro r hr
      have := h.expand (')' :: r) (noWord_cons rfl r)
      rw [(expand_cons (c := ')') rfl r).1] at this
      simp only [List.map_cons, List.map_append, List.map_nil, List.cons_append, List.append_assoc, List.nil_append, show Char.toUpper '(' = '(' from rfl,
        show Char.toUpper ')' = ')' from rfl, (expand_cons (c := '(') rfl _).1, this]
    · intro r hr
      have := h.words (')' :: r) (noWord_cons rfl r)
      rw [(expand_cons (c := ')') rfl r).2] at this
      simp only [List.map_cons, List.map_append, List.map_nil, List.cons_append, List.append_assoc, List.nil_append, show Char.toUpper '(' = '(' from rfl,
        show Char.toUpper ')' = ')' from rfl, (expand_cons (c := '(') rfl _).2, this]
    · intro r
      simp only [List.cons_append, List.append_assoc, List.nil_append]
      rw [lex_tok (t := .lpar) rfl, h.lex, lex_tok (t := .rpar) rfl]
      cases lexGo r .start <;> simp
  | @and s t f g _ _ ih1 ih2 =>
    obtain ⟨x, toks, ast, h⟩ := ih1
    obtain ⟨x', toks', ast', h'⟩ := ih2
    obtain ⟨L, hl, hL⟩ := h'.phrase
    obtain ⟨c1, c2⟩ := (h.chain (.inr rfl)).opLow (o := .amp) (.inr rfl) rfl hL (by omega)
    refine ⟨x ++ '&' :: x', toks ++ .op .amp :: toks', .bin .amp ast ast', ?_, ?_, ?_, ?_, ⟨5, by omega, c2⟩, fun _ => c1, ?_⟩
    · intro r hr
      simp only [List.map_append, List.map_cons, List.append_assoc, List.cons_append, show Char.toUpper '&' = '&' from rfl]
      rw [h.expand _ (noWord_cons rfl _), (expand_cons (c := '&') rfl _).1, h'.expand r hr]
    · intro r hr
      simp only [List.map_append, List.map_cons, List.append_assoc, List.cons_append, show Char.toUpper '&' = '&' from rfl]
      rw [h.words _ (noWord_cons rfl _), (expand_cons (c := '&') rfl _).2, h'.words r hr, CForm.words, List.append_assoc]
    · intro w hw; rcases List.mem_append.1 hw with hw | hw
      · exact h.alnum w hw
      · exact h'.alnum w hw
    · intro r
      simp only [List.append_assoc, List.cons_append]
      rw [h.lex, lex_tok (t := .op .amp) rfl, h'.lex]
      cases lexGo r .start <;> simp
    · intro env xs henv
      exact and_runs (h.run env xs (fun w hw => henv w (List.mem_append_left _ hw))) (h'.run env xs (fun w hw => henv w (List.mem_append_right _ hw)))
  | @or s t f g _ _ ih1 ih2 =>
    obtain ⟨x, toks, ast, h⟩ := ih1
    obtain ⟨x', toks', ast', h'⟩ := ih2
    obtain ⟨L, hl, hL⟩ := h'.phrase
    obtain ⟨c1, c2⟩ := (h.chain (.inl rfl)).opLow (o := .bar) (.inl rfl) rfl hL (by omega)
    refine ⟨x ++ '|' :: x', toks ++ .op .bar :: toks', .bin .bar ast ast', ?_, ?_, ?_, ?_, ⟨4, by omega, c2⟩, fun _ => c1, ?_⟩
    · intro r hr
      simp only [List.map_append, List.map_cons, List.append_assoc, List.cons_append, show Char.toUpper '|' = '|' from rfl]
      rw [h.expand _ (noWord_cons rfl _), (expand_cons (c := '|') rfl _).1, h'.expand r hr]
    · intro r hr
      simp only [List.map_append, List.map_cons, List.append_assoc, List.cons_append, show Char.toUpper '|' = '|' from rfl]
      rw [h.words _ (noWord_cons rfl _), (expand_cons (c := '|') rfl _).2, h'.words r hr, CForm.words, List.append_assoc]
    · intro w hw; rcases List.mem_append.1 hw with hw | hw
      · exact h.alnum w hw
      · exact h'.alnum w hw
    · intro r
      simp only [List.append_assoc, List.cons_append]
      rw [h.lex, lex_tok (t := .op .bar) rfl, h'.lex]
      cases lexGo r .start <;> simp
    · intro env xs henv
      exact or_runs (h.run env xs (fun w hw => henv w (List.mem_append_left _ hw))) (h'.run env xs (fun w hw => henv w (List.mem_append_right _ hw)))
  | bracket _ ih =>
    obtain ⟨x, toks, ast, h⟩ := ih
    obtain ⟨L, hl, hL⟩ := h.phrase
    exact ⟨x, toks, ast, { h with phrase := ⟨L, by omega, hL⟩, chain := fun _ => hL.chainLow (.inr rfl) (by omega) }⟩
  | conj _ ih =>
    obtain ⟨x, toks, ast, h⟩ := ih
    obtain ⟨L, hl, hL⟩ := h.phrase
    exact ⟨x, toks, ast, { h with phrase := ⟨L, by omega, hL⟩, chain := fun _ => hL.chainLow (.inl rfl) (by omega) }⟩
  | @blankL l s a _ ih =>
    obtain ⟨x, toks, ast, h⟩ := ih
    refine ⟨' ' :: x, toks, ast, { h with expand := ?_, words := ?_, lex := ?_ }⟩
    · intro r hr
      simp only [List.map_cons, List.cons_append, show Char.toUpper ' ' = ' ' from rfl, (expand_cons (c := ' ') rfl _).1, h.expand r hr]
    · intro r hr
      simp only [List.map_cons, List.cons_append, show Char.toUpper ' ' = ' ' from rfl, (expand_cons (c := ' ') rfl _).2, h.words r hr]
    · intro r; rw [List.cons_append, lex_blank, h.lex]
  | @blankR l s a _ ih =>
    obtain ⟨x, toks, ast, h⟩ := ih
    refine ⟨x ++ [' '], toks, ast, { h with expand := ?_, words := ?_, lex := ?_ }⟩
    · intro r hr
      simp only [List.map_append, List.map_cons, List.map_nil, List.append_assoc, List.cons_append, List.nil_append, show Char.toUpper ' ' = ' ' from rfl]
      rw [h.expand _ (noWord_cons rfl _), (expand_cons (c := ' ') rfl _).1]
    · intro r hr
      simp only [List.map_append, List.map_cons, List.map_nil, List.append_assoc, List.cons_append, List.nil_append, show Char.toUpper ' ' = ' ' from rfl]
      rw [h.words _ (noWord_cons rfl _), (expand_cons (c := ' ') rfl _).2]
    · intro r
      rw [List.append_assoc, List.cons_append, List.nil_append, h.lex, lex_blank]

/-- The condition is about to be added. -/
theorem cond_front (h : Heap) (ord : List Char → List Char) (ho : ∀ l, (ord l).Perm l) {source : List Char} {f : CForm} (hsrc : CCond 4 source f)
    (avoid : Bool) :
    ∃ w letters nonZero o isBool, cryptBuild ord source avoid ⟨.empty, h⟩ = ((do addConstraint (o.asArg isBool); return letters) : Api (List Char)) w ∧
      letters.Nodup ∧ (∀ c, c ∈ letters ↔ ∃ w ∈ f.words, c ∈ w ∧ ¬ IsDigit c) ∧
      (∀ c, c ∈ nonZero ↔ ∃ w ∈ f.words, w.head? = some c ∧ ¬ IsDigit c) ∧ (∀ c ∈ letters, isCap c = true) ∧
      KindOk isBool f.kind o ∧ (∀ k : Prop, (k → f.Clean) → ∃ v, DenL k (¬ f.IsOr) (letters.map letterName) o v ∧
        ∀ σ : Subst, (∀ x ∈ letters.map letterName, Dict.get? σ x ≠ none) → (v (val σ) ≠ 0 ↔ f.Holds (fun c => val σ (letterName c)))) ∧
      Built h.params w (tabVars letters letterName (letterDom nonZero)) (fun σ =>
        ∀ c ∈ letters, ∀ c' ∈ letters, c ≠ c' → val σ (letterName c) ≠ val σ (letterName c')) := by
  have hnil : NoWord [] := by intro c hc; cases hc
  obtain ⟨x, toks, ast, hd⟩ := cond_done hsrc
  have e1 := hd.expand [] hnil
  have e2 := hd.words [] hnil
  have e3 := hd.lex []
  simp only [List.append_nil, expandGo, flushWord, if_true] at e1
  simp only [List.append_nil, wordsOf, if_true] at e2
  simp only [List.append_nil, show lexGo [] .start = some [] from rfl, Option.map_some] at e3
  obtain ⟨L, hL, hp⟩ := hd.phrase
  obtain ⟨w, letters, nz, arg, e, h1, h2, h3, hcap, ⟨o, isBool, rfl, hk, hv⟩, hb⟩ := crypt_words h ord ho e1 e2 hd.alnum
    (Q := fun xs arg => ∃ o isBool, arg = Obj.asArg isBool o ∧ KindOk isBool f.kind o ∧ (∀ k : Prop, (k → f.Clean) → ∃ v, DenL k (¬ f.IsOr) xs o v ∧
        ∀ σ : Subst, (∀ x ∈ xs, Dict.get? σ x ≠ none) → (v (val σ) ≠ 0 ↔ f.Holds (fun c => val σ (letterName c))))) (by
      intro env xs henv
      obtain ⟨o, hr⟩ := hd.run env xs henv
      refine ⟨_, ?_, o, ast.isBool env, rfl, hr.kind, hr.value⟩
      simp only [pyEvalArg, e3, parseBody_ok hp.zero, hr.run]
      rfl) avoid
  exact ⟨w, letters, nz, o, isBool, e, h1, h2, h3, hcap, hk, hv, hb⟩

theorem kind_arg {isBool : Bool} {k : CKindOf} {o : Obj} (h : KindOk isBool k o) : o.asArg isBool = if k = .number then .other else o.toArg := by
  cases k with
  | truth => obtain ⟨_, rfl⟩ := h; cases o <;> rfl
  | number => obtain ⟨rfl | rfl, rfl⟩ := h <;> rfl
  | formula => obtain ⟨e, rfl, _⟩ := h; rfl

theorem cond_built (h : Heap) (ord : List Char → List Char) (ho : ∀ l, (ord l).Perm l) {source : List Char} {f : CForm} (hsrc : CCond 4 source f)
    {k : Prop} (hcl : k → f.Clean) (hk : f.kind ≠ .number) (avoid : Bool) :
    ∃ w letters nonZero, cryptBuild ord source avoid ⟨.empty, h⟩ = (w, .ok letters) ∧ letters.Nodup ∧
      (∀ c, c ∈ letters ↔ ∃ w ∈ f.words, c ∈ w ∧ ¬ IsDigit c) ∧
      (∀ c, c ∈ nonZero ↔ ∃ w ∈ f.words, w.head? = some c ∧ ¬ IsDigit c) ∧ (∀ c ∈ letters, isCap c = true) ∧
      BuiltC k h.params w (tabVars letters letterName (letterDom nonZero)) (fun σ =>
        (∀ c ∈ letters, ∀ c' ∈ letters, c ≠ c' → val σ (letterName c) ≠ val σ (letterName c')) ∧
        f.Holds (fun c => val σ (letterName c))) := by
  obtain ⟨w, letters, nz, o, isBool, e, h1, h2, h3, hcap, hkd, hv, hb⟩ := cond_front h ord ho hsrc avoid
  obtain ⟨v, hd, hval⟩ := hv k hcl
  obtain ⟨w3, e3, b3⟩ := (hb.mono (sf' := k) (fun _ => trivial)).addDenL hd (by intro x hx; rw [tabVars_keys]; exact hx)
    (by intro x hx; obtain ⟨c, hc, rfl⟩ := List.mem_map.1 hx; exact (cap_facts (hcap c hc)).2.2.2.2.1)
  refine ⟨w3, letters, nz, ?_, h1, h2, h3, hcap, b3.congr (fun σ hσ => ?_)⟩
  · rw [e, kind_arg hkd, if_neg hk]
    simp only [Api.bind_apply, e3]
    rfl
  · rw [hval σ (fun x hx => ?_)]
    rw [← tabVars_keys (dom := letterDom nz)] at hx
    obtain ⟨d, hd⟩ := Dict.get?_isSome_of_mem_keys hx
    obtain ⟨v, _, hv⟩ := hσ _ (get?_mem hd)
    rw [hv]; simp

theorem holds_congr (f : CForm) {d d' : Char → Int} (hd : ∀ w ∈ f.words, ∀ c ∈ w, ¬ IsDigit c → d c = d' c) : f.Holds d ↔ f.Holds d' := by
  induction f with
  | cmp l q r =>
    rw [CForm.Holds, CForm.Holds, value_congr l (fun w hw => hd w (List.mem_append_left _ hw)), value_congr r (fun w hw => hd w (List.mem_append_right _ hw))]
  | and f g ihf ihg => rw [CForm.Holds, CForm.Holds, ihf (fun w hw => hd w (List.mem_append_left _ hw)), ihg (fun w hw => hd w (List.mem_append_right _ hw))]
  | or f g ihf ihg => rw [CForm.Holds, CForm.Holds, ihf (fun w hw => hd w (List.mem_append_left _ hw)), ihg (fun w hw => hd w (List.mem_append_right _ hw))]

/-! ## The theorems -/

/-- C78, as far as it is true: if no disjunction is part of a conjunction, the results are the digits for the letters (all different, no word
beginning with a zero) for which the combined condition holds, each once. Missing from the full claim: disjunctions inside conjunctions
(`C78_refuted`), and conditions made of constants only (`C78_type_error`). -/
theorem C78_partial (h : Heap) (a : SolveArgs) (hs : ∀ l, (a.shuffle l).Perm l) (ha : a.adds = []) (ord : List Char → List Char)
    (ho : ∀ l, (ord l).Perm l) (source : List Char) (f : CForm) (hsrc : CCond 4 source f) (hcl : f.Clean)
    (hne : ∃ w ∈ f.words, ∃ c ∈ w, ¬ IsDigit c) (hk : f.kind ≠ .number) (avoid : Bool) :
    ∃ w letters, cryptBuild ord source avoid ⟨.empty, h⟩ = (w, .ok letters) ∧ letters.Nodup ∧
      (∀ c, c ∈ letters ↔ ∃ w ∈ f.words, c ∈ w ∧ ¬ IsDigit c) ∧
      PuzzleRun a (puzzleRun a w (cryptDecode letters)) (SolvesFor f.words letters (fun d => f.Holds d)) := by
  obtain ⟨w, letters, nz, e, h1, h2, h3, hcap, hb⟩ := cond_built h ord ho hsrc (k := True) (fun _ => hcl) hk avoid
  refine ⟨w, letters, e, h1, h2, links_puzzle a hs ha h1 h2 h3 (fun d d' hd => (holds_congr f hd).1) ?_ hb⟩
  obtain ⟨w, hw, c, hc, hd⟩ := hne
  exact ⟨c, (h2 c).2 ⟨w, hw, hc, hd⟩⟩

/-- Without compilation the claim is true of every condition that Python does not compute at once. -/
theorem C78_uncompiled (h : Heap) (a : SolveArgs) (hs : ∀ l, (a.shuffle l).Perm l) (ha : a.adds = []) (hcomp : a.solver.compile = false)
    (ord : List Char → List Char) (ho : ∀ l, (ord l).Perm l) (source : List Char) (f : CForm) (hsrc : CCond 4 source f)
    (hne : ∃ w ∈ f.words, ∃ c ∈ w, ¬ IsDigit c) (hk : f.kind ≠ .number) (avoid : Bool) :
    ∃ w letters, cryptBuild ord source avoid ⟨.empty, h⟩ = (w, .ok letters) ∧ letters.Nodup ∧
      (∀ c, c ∈ letters ↔ ∃ w ∈ f.words, c ∈ w ∧ ¬ IsDigit c) ∧
      PuzzleRun a (puzzleRun a w (cryptDecode letters)) (SolvesFor f.words letters (fun d => f.Holds d)) := by
  obtain ⟨w, letters, nz, e, h1, h2, h3, hcap, hb⟩ := cond_built h ord ho hsrc (k := False) (fun x => x.elim) hk avoid
  have : FitsArgs a False := ⟨fun hc => by rw [hcomp] at hc; cases hc⟩
  refine ⟨w, letters, e, h1, h2, links_puzzle a hs ha h1 h2 h3 (fun d d' hd => (holds_congr f hd).1) ?_ hb⟩
  obtain ⟨w, hw, c, hc, hd⟩ := hne
  exact ⟨c, (h2 c).2 ⟨w, hw, hc, hd⟩⟩

/-- If Python can compute the condition though some of its comparisons are between constants with letters in them, it is an int, and the
constructor raises TypeError. -/
theorem C78_type_error (h : Heap) (ord : List Char → List Char) (ho : ∀ l, (ord l).Perm l) (source : List Char) (f : CForm) (hsrc : CCond 4 source f)
    (hk : f.kind = .number) (avoid : Bool) : ∃ w, cryptBuild ord source avoid ⟨.empty, h⟩ = (w, .error .typeError) := by
  obtain ⟨w, letters, nz, o, isBool, e, -, -, -, -, hkd, -⟩ := cond_front h ord ho hsrc avoid
  rw [kind_arg hkd, if_pos hk] at e
  exact ⟨w, e⟩

theorem kind_digits {f : CForm} (h : ∀ w ∈ f.words, ∀ c ∈ w, IsDigit c) : f.kind = .truth := by
  induction f with
  | cmp l q r =>
    obtain ⟨m, hm⟩ := folded_number (fun w hw => h w (List.mem_append_left _ hw))
    obtain ⟨n, hn⟩ := folded_number (fun w hw => h w (List.mem_append_right _ hw))
    rw [CForm.kind, hm, hn]; rfl
  | and f g ihf ihg => rw [CForm.kind, ihf (fun w hw => h w (List.mem_append_left _ hw)), ihg (fun w hw => h w (List.mem_append_right _ hw))]; rfl
  | or f g ihf ihg => rw [CForm.kind, ihf (fun w hw => h w (List.mem_append_left _ hw)), ihg (fun w hw => h w (List.mem_append_right _ hw))]; rfl

theorem clean_digits {f : CForm} (h : ∀ w ∈ f.words, ∀ c ∈ w, IsDigit c) : f.Clean ∧ ¬ f.IsOr := by
  induction f with
  | cmp l q r => exact ⟨trivial, fun h => h⟩
  | and f g ihf ihg =>
    obtain ⟨h1, h2⟩ := ihf (fun w hw => h w (List.mem_append_left _ hw))
    obtain ⟨h3, h4⟩ := ihg (fun w hw => h w (List.mem_append_right _ hw))
    exact ⟨⟨h1, h3, h2, h4⟩, fun h => h⟩
  | or f g ihf ihg =>
    obtain ⟨h1, h2⟩ := ihf (fun w hw => h w (List.mem_append_left _ hw))
    obtain ⟨h3, h4⟩ := ihg (fun w hw => h w (List.mem_append_right _ hw))
    refine ⟨⟨h1, h3⟩, fun hk => ?_⟩
    have : (CForm.or f g).kind = .truth := kind_digits h
    rw [CForm.kind] at this
    rw [CForm.IsOr, this] at hk
    cases hk

/-- Without letters there are no variables, so nothing is produced, even if the condition is true. -/
theorem C78_no_letters (h : Heap) (a : SolveArgs) (hs : ∀ l, (a.shuffle l).Perm l) (ord : List Char → List Char)
    (ho : ∀ l, (ord l).Perm l) (source : List Char) (f : CForm) (hsrc : CCond 4 source f) (hne : ∀ w ∈ f.words, ∀ c ∈ w, IsDigit c) (avoid : Bool) :
    ∃ w, cryptBuild ord source avoid ⟨.empty, h⟩ = (w, .ok []) ∧ ∀ n, (puzzleRun a w (cryptDecode []) n).1 = .ok [] := by
  obtain ⟨w, letters, nz, e, h1, h2, h3, hcap, hb⟩ := cond_built h ord ho hsrc (k := True) (fun _ => (clean_digits hne).1) (by rw [kind_digits hne]; nofun) avoid
  have : letters = [] := List.eq_nil_iff_forall_not_mem.2 (fun c hc => by
    obtain ⟨w, hw, hc, hd⟩ := (h2 c).1 hc
    exact hd (hne w hw c hc))
  subst this
  exact ⟨w, e, fun n => puzzle_no_vars hs (by rw [hb.pureKeys]; rfl) _ n⟩

/-- The full claim: the results are the digits for which the condition holds. -/
def C78 : Prop := ∀ (a : SolveArgs), (∀ l, (a.shuffle l).Perm l) → a.adds = [] →
  ∀ (source : List Char) (f : CForm), CCond 4 source f → (∃ w ∈ f.words, ∃ c ∈ w, ¬ IsDigit c) →
    ∃ w letters, cryptBuild id source true ⟨.empty, heap0⟩ = (w, .ok letters) ∧
      PuzzleRun a (puzzleRun a w (cryptDecode letters)) (SolvesFor f.words letters (fun d => f.Holds d))

/-- `A = n`, for a digit `n`. -/
def isA (n : Char) : CForm := .cmp (.word ['A']) .eq (.word [n])

theorem text_isA {n : Char} (hn : IsAlnum n) (hu : n.toUpper = n) : CCond 6 ("(A==".toList ++ [n] ++ [')']) (isA n) := by
  have h1 : CText 6 ['A'] (.word ['A']) := .term (.factor (.word (w := ['A']) (by simp) (by decide)))
  have h2 : CText 6 [n] (.word [n]) := by
    have := CText.word (w := [n]) (by simp) (by simpa using hn)
    rw [show [n].map Char.toUpper = [n] by simp [hu]] at this
    exact .term (.factor this)
  exact .cmp (q := .eq) h1 h2

theorem source_orand : CCond 4 "((A==1)|(A==2))&(A==3)".toList (.and (.or (isA '1') (isA '2')) (isA '3')) :=
  .conj (.and (s := "((A==1)|(A==2))".toList) (t := "(A==3)".toList)
    (.bracket (.paren (s := "(A==1)|(A==2)".toList)
      (.or (s := "(A==1)".toList) (t := "(A==2)".toList) (.conj (.bracket (text_isA (n := '1') (by decide) (by decide))))
        (.bracket (text_isA (n := '2') (by decide) (by decide))))))
    (text_isA (n := '3') (by decide) (by decide)))

theorem run_orand : (puzzleRun { solver := {} } (built (cryptBuild id "((A==1)|(A==2))&(A==3)".toList true) []).1
    (cryptDecode (built (cryptBuild id "((A==1)|(A==2))&(A==3)".toList true) []).2) 40).1 = .ok [[('A', 1)]] := by decide +kernel

/-- `(A = 1 or A = 2) and A = 3`: no digit will do, but the class, with its default settings, produces `A = 1`. -/
theorem C78_refuted : ¬ C78 := by
  intro h
  obtain ⟨w, letters, h1, h3⟩ := h { solver := {} } (fun l => .refl _) rfl _ _ source_orand ⟨['A'], by decide, 'A', by decide, by decide⟩
  have hb : built (cryptBuild id "((A==1)|(A==2))&(A==3)".toList true) [] = (w, letters) := by rw [built, h1]
  have hr := run_orand
  rw [hb] at hr
  obtain ⟨L, e1, e2⟩ := h3.sound 40
  have hL := e1.symm.trans hr
  cases hL
  have := e2 [('A', 1)] (by simp)
  have hd := this.holds (fun _ => 1) (by simp)
  simp [isA, CForm.Holds, CTree.value, wordVal, charVal, IsDigit, CRel.Holds] at hd

/-! ## Examples -/

/-- `(A==1)|(A==2)` meets the hypotheses of `C78_partial`. -/
theorem source_or : CCond 4 "(A==1)|(A==2)".toList (.or (isA '1') (isA '2')) :=
  .or (s := "(A==1)".toList) (t := "(A==2)".toList) (.conj (.bracket (text_isA (n := '1') (by decide) (by decide))))
    (.bracket (text_isA (n := '2') (by decide) (by decide)))

theorem kind_or : (CForm.or (isA '1') (isA '2')).kind = .formula := by
  simp [CForm.kind, isA, relKind, CKindOf.join, CTree.folded, IsDigit]

example : ∃ w letters, cryptBuild id "(A==1)|(A==2)".toList true ⟨.empty, heap0⟩ = (w, .ok letters) ∧ letters.Nodup ∧
      (∀ c, c ∈ letters ↔ ∃ w ∈ (CForm.or (isA '1') (isA '2')).words, c ∈ w ∧ ¬ IsDigit c) ∧
      PuzzleRun { solver := {} } (puzzleRun { solver := {} } w (cryptDecode letters))
        (SolvesFor (CForm.or (isA '1') (isA '2')).words letters (fun d => (CForm.or (isA '1') (isA '2')).Holds d)) :=
  C78_partial heap0 { solver := {} } (fun l => .refl _) rfl id (fun l => .refl _) _ _ source_or ⟨trivial, trivial⟩
    ⟨['A'], by decide, 'A', by decide, by decide⟩ (by rw [kind_or]; nofun) true

example : (puzzleRun { solver := {} } (built (cryptBuild id "(A==1)|(A==2)".toList true) []).1
    (cryptDecode (built (cryptBuild id "(A==1)|(A==2)".toList true) []).2) 40).1 = .ok [[('A', 1)], [('A', 2)]] := by decide +kernel

/-- A conjunction inside a disjunction, with blanks. -/
example : (puzzleRun { solver := {} } (built (cryptBuild id "(a==1) & (1==2) | (A*A >= 64)".toList true) []).1
    (cryptDecode (built (cryptBuild id "(a==1) & (1==2) | (A*A >= 64)".toList true) []).2) 60).1 = .ok [[('A', 8)], [('A', 9)]] := by decide +kernel

/-- Without brackets around the comparisons the text is another condition: `A==1|2` is `A==(1|2)`. -/
example : (puzzleRun { solver := {} } (built (cryptBuild id "A==1|2".toList true) []).1
    (cryptDecode (built (cryptBuild id "A==1|2".toList true) []).2) 60).1 = .ok [[('A', 3)]] := by decide +kernel

/-- A condition on constants is an int. -/
example : (match (cryptBuild id "(0*A==0*B)&(1==1)".toList true ⟨.empty, heap0⟩).2 with | .error .typeError => true | _ => false) = true := by decide +kernel

/-- Two bools are a bool. -/
example : (match (cryptBuild id "(2==2)&(1==1)".toList true ⟨.empty, heap0⟩).2 with | .ok [] => true | _ => false) = true := by decide +kernel

/-- The condition of `C78_refuted` meets the hypotheses of `C78_uncompiled` … -/
example : (CForm.and (.or (isA '1') (isA '2')) (isA '3')).kind ≠ .number := by
  simp [CForm.kind, isA, relKind, CKindOf.join, CTree.folded, IsDigit]

/-- … and nothing is found. -/
example : (puzzleRun { solver := { compile := false } } (built (cryptBuild id "((A==1)|(A==2))&(A==3)".toList true) []).1
    (cryptDecode (built (cryptBuild id "((A==1)|(A==2))&(A==3)".toList true) []).2) 40).1 = .ok [] := by decide +kernel

end Satisfy.Props
