import Verif.Lemmas.ParseChain
import Verif.Lemmas.Vars
import Verif.SpecCompile
/-! Safe expressions compile to a body that computes the same value. -/

namespace Satisfy

/-- The lambda's environment offers the substitution's values and does not hide the helpers. -/
def EnvOk (σ : Subst) (env : Name → Option Int) (xs : List Name) : Prop :=
  (∀ x ∈ xs, env x = σ.get? x) ∧ env "sum" = none ∧ env "prod" = none ∧ env "abs" = none

theorem EnvOk.sub {σ env xs ys} (h : EnvOk σ env xs) (hs : ∀ x ∈ ys, x ∈ xs) : EnvOk σ env ys :=
  ⟨fun x hx => h.1 x (hs x hx), h.2⟩

/-- `a` computes the value of `e`, and raises what `e` raises if nothing is skipped by `and` and `or`. -/
structure Sem (ρ : Store) (e : Expr) (a : Ast) : Prop where
  ok : ∀ σ env, EnvOk σ env e.vars → ∀ v, e.eval ρ σ = .ok v → a.eval env = .ok v
  same : e.eager = true → ∀ σ env, EnvOk σ env e.vars → (∀ x ∈ e.vars, σ.get? x ≠ none) → a.eval env = e.eval ρ σ

theorem eagers_iff {es : List Expr} : eagers es = true ↔ ∀ e ∈ es, e.eager = true := by
  induction es with
  | nil => simp [eagers]
  | cons e es ih => simp [eagers, ih]

/-- What always has a value. -/
theorem Sem.total {ρ : Store} {e : Expr} {a : Ast} (h : ∀ σ env, EnvOk σ env e.vars → (∀ x ∈ e.vars, σ.get? x ≠ none) →
    ∃ v, e.eval ρ σ = .ok v ∧ a.eval env = .ok v) : Sem ρ e a :=
  ⟨fun σ env he v hv => by
    obtain ⟨v', h1, h2⟩ := h σ env he (fun x hx => by obtain ⟨w, hw⟩ := eval_ok_bound hv x hx; rw [hw]; simp)
    rw [hv] at h1; cases h1; exact h2,
   fun _ σ env he hb => by
    obtain ⟨v', h1, h2⟩ := h σ env he hb
    rw [h1, h2]⟩

/-- `t` is a text of level `L` meaning `e`. -/
def Good (ρ : Store) (e : Expr) (t : List Tok) (L : Nat) : Prop :=
  ∃ a, OrPhrase t a ∧ (1 ≤ L → Phrase t L a) ∧ Sem ρ e a

theorem Good.of_phrase {ρ e t L a} (h : Phrase t L a) (hL : 1 ≤ L) (hs : Sem ρ e a) : Good ρ e t L :=
  ⟨a, h.toOr hL, fun _ => h, hs⟩

theorem intLvl_pos (n : Int) : 8 ≤ intLvl n := by unfold intLvl; split <;> omega

theorem good_int (ρ : Store) (n : Int) {e : Expr} (he : ∀ σ, e.eval ρ σ = .ok n) :
    Good ρ e (intToks n) (intLvl n) := by
  unfold intToks intLvl
  by_cases h : n < 0
  · rw [if_pos h, if_pos h]
    refine .of_phrase ((Phrase.num n.natAbs).minus (by omega)) (by omega) (.total ?_)
    intro σ env _ _
    refine ⟨n, he σ, ?_⟩
    simp [Ast.eval]; omega
  · rw [if_neg h, if_neg h]
    refine .of_phrase (Phrase.num n.natAbs) (by omega) (.total ?_)
    intro σ env _ _
    refine ⟨n, he σ, ?_⟩
    simp [Ast.eval]; omega

theorem keyword_not_ok : ∀ x ∈ pyKeywords, ¬ NameOk x := by decide

theorem good_var (ρ : Store) {x : Name} (hx : NameOk x) : Good ρ (.var x) [.name x] 10 := by
  refine .of_phrase (Phrase.name ?_) (by omega) (.total ?_)
  · intro h; exact keyword_not_ok x h hx
  · intro σ env he hb
    have h1 := he.1 x (by simp [Expr.vars])
    have h2 := hb x (by simp [Expr.vars])
    obtain ⟨v, hv⟩ := Option.ne_none_iff_exists'.1 h2
    exact ⟨v, by simp [Expr.eval, hv], by simp [Ast.eval, h1, hv]⟩

/-! ### binary operators -/

theorem sem_bin {ρ : Store} {o : BOp} {l r : Expr} {a b : Ast} (ha : Sem ρ l a) (hb : Sem ρ r b) :
    Sem ρ (.bin o l r) (mkBin o.pySym a b) := by
  constructor
  · intro σ env he v hv
    rw [bin_ok_iff] at hv
    obtain ⟨x, y, hx, hy, hv⟩ := hv
    have hx := ha.ok σ env (he.sub (by simp; tauto)) x hx
    have hy := hb.ok σ env (he.sub (by simp; tauto)) y hy
    cases o <;> simp only [BOp.op, BOp.pySym, mkBin, OpTok.level] at * <;>
      simp [Ast.eval, hx, hy, OpTok.arith, OpTok.compare, ofBool, pyAnd, pyOr] at hv ⊢ <;>
      first
        | exact hv
        | (split <;> simp_all)
  · intro hg σ env he hbd
    simp only [Expr.eager, Bool.and_eq_true, decide_eq_true_eq] at hg
    obtain ⟨⟨⟨h1, h2⟩, h3⟩, h4⟩ := hg
    have hx := ha.same h3 σ env (he.sub (by simp; tauto)) (fun x hx => hbd x (by simp [hx]))
    have hy := hb.same h4 σ env (he.sub (by simp; tauto)) (fun x hx => hbd x (by simp [hx]))
    rw [Expr.eval]
    cases o <;> simp only [BOp.pySym, mkBin, OpTok.level] at * <;>
      first
        | exact absurd rfl h1
        | exact absurd rfl h2
        | (simp [Ast.eval, hx, hy, OpTok.arith, OpTok.compare, ofBool, BOp.op]; done)

theorem bop_level (o : BOp) (h1 : o ≠ .or) (h2 : o ≠ .pow) : ∃ m, o.pySym.level = some m ∧
    (m = 1 ∨ m = 6 ∨ m = 7 ∨ m = 3) ∧ o.need = (m + 1, m + 1) := by
  cases o <;> simp_all [BOp.pySym, OpTok.level, BOp.need]

theorem good_bin {ρ : Store} {o : BOp} {l r : Expr} {tl tr : List Tok} {L R : Nat} (ho : o ≠ .or)
    (hl : Good ρ l tl L) (hr : Good ρ r tr R) (hL : o.need.1 ≤ L) (hR : o.need.2 ≤ R) :
    Good ρ (.bin o l r) (.lpar :: tl ++ .op o.pySym :: tr ++ [.rpar]) 10 := by
  obtain ⟨a, _, pa, sa⟩ := hl
  obtain ⟨b, _, pb, sb⟩ := hr
  have shape : (Tok.lpar :: tl ++ Tok.op o.pySym :: tr ++ [Tok.rpar]) = .lpar :: (tl ++ .op o.pySym :: tr) ++ [.rpar] := by
    simp
  rw [shape]
  by_cases hp : o = .pow
  · subst hp
    simp only [BOp.need] at hL hR
    have hL10 : L = 10 := by have := (pa (by omega)).le; omega
    subst hL10
    exact .of_phrase (Phrase.paren (pow_phrase (pa (by omega)) (pb (by omega)) hR)) (by omega) (sem_bin sa sb)
  · obtain ⟨m, h1, h2, h3⟩ := bop_level o ho hp
    rw [h3] at hL hR
    simp only at hL hR
    exact .of_phrase (Phrase.paren (bin_phrase h1 h2 (pa (by omega)) (pb (by omega)) hL hR)) (by omega) (sem_bin sa sb)

theorem good_or {ρ : Store} {l r : Expr} {tl tr : List Tok} {L R : Nat}
    (hl : Good ρ l tl L) (hr : Good ρ r tr R) : Good ρ (.bin .or l r) (tl ++ .op .or :: tr) 0 := by
  obtain ⟨a, oa, _, sa⟩ := hl
  obtain ⟨b, ob, _, sb⟩ := hr
  obtain ⟨c, oc, hc⟩ := oa.or ob
  refine ⟨c, oc, fun h => by omega, ?_⟩
  have hs := sem_bin (o := .or) sa sb
  exact ⟨fun σ env he v hv => by rw [hc env]; exact hs.ok σ env he v hv, fun hg => by simp [Expr.eager] at hg⟩

/-! ### accumulations -/

inductive GoodL (ρ : Store) : List Expr → List (List Tok) → List Nat → Prop
  | nil : GoodL ρ [] [] []
  | cons {e t L es ts Ls} : Good ρ e t L → GoodL ρ es ts Ls → GoodL ρ (e :: es) (t :: ts) (L :: Ls)

theorem goodL_phrases {ρ es ts Ls} (h : GoodL ρ es ts Ls) :
    ∃ as, Phrases ts as ∧ (∀ σ env, (∀ e ∈ es, EnvOk σ env e.vars) → AllOk ρ σ es →
      Ast.evalList env as = .ok (es.map (fun e => e.val ρ σ))) ∧
      ∀ σ env, (∀ e ∈ es, EnvOk σ env e.vars) → (∀ e ∈ es, e.eager = true) → (∀ e ∈ es, ∀ x ∈ e.vars, σ.get? x ≠ none) → ∀ (k : AccKind) (c : Int),
        (do let vs ← Ast.evalList env as; Except.ok (vs.foldl k.op c)) = Expr.evalAcc ρ σ k c es := by
  induction h with
  | nil => exact ⟨[], .nil, fun _ _ _ _ => rfl, fun _ _ _ _ _ _ _ => rfl⟩
  | @cons e t L es ts Ls h hs ih =>
    obtain ⟨a, oa, _, sa⟩ := h
    obtain ⟨as, ps, ih, ih2⟩ := ih
    refine ⟨a :: as, .cons oa.zero ps, fun σ env he hok => ?_, fun σ env he hg hb k c => ?_⟩
    · rw [allOk_cons] at hok
      rw [Ast.evalList, sa.ok σ env (he e (by simp)) _ hok.1, ih σ env (fun e h => he e (by simp [h])) hok.2]
      rfl
    · have h1 := sa.same (hg e (by simp)) σ env (he e (by simp)) (hb e (by simp))
      have h2 := ih2 σ env (fun e h => he e (by simp [h])) (fun e h => hg e (by simp [h])) (fun e h => hb e (by simp [h])) k
      rw [Ast.evalList, Expr.evalAcc, h1]
      cases e.eval ρ σ with
      | error er => rfl
      | ok v =>
        rw [ok_bind, ok_bind, ← h2]
        cases Ast.evalList env as <;> rfl

theorem total_map {ρ σ} (k : AccKind) (c : Int) (es : List Expr) :
    total ρ σ k c es = (es.map (fun e => e.val ρ σ)).foldl k.op c := by
  simp [total, List.foldl_map]

theorem callSeq_ok (k : AccKind) (vs : List Int) : callSeq k.fn vs = .ok (vs.foldl k.op k.neutral) := by
  cases k <;> rfl

/-- Three or more printed values. -/
theorem good_call {ρ : Store} (k : AccKind) {es : List Expr} {ts Ls} (h : GoodL ρ es ts Ls) (hne : ts ≠ [])
    {e : Expr} (hv : ∀ x, x ∈ e.vars ↔ ∃ e' ∈ es, x ∈ e'.vars) (hg : e.eager = true → ∀ e' ∈ es, e'.eager = true)
    (he : ∀ σ, e.eval ρ σ = Expr.evalAcc ρ σ k k.neutral es) :
    Good ρ e ([.name k.fn, .lpar, .lbrk] ++ joinToks ts ++ [.rbrk, .rpar]) 10 := by
  obtain ⟨as, ps, hs, hs2⟩ := goodL_phrases h
  refine .of_phrase (callList_phrase ps hne k.fn) (by omega) ⟨?_, ?_⟩
  · intro σ env henv v hev
    rw [he] at hev
    obtain ⟨h1, h2⟩ := acc_ok_iff.1 (show (Expr.acc k k.neutral es).eval ρ σ = .ok v from by rw [Expr.eval]; exact hev)
    have hf : env k.fn = none := by cases k; exacts [henv.2.1, henv.2.2.1]
    rw [Ast.eval, hs σ env (fun e' he' => henv.sub (fun x hx => (hv x).2 ⟨e', he', hx⟩)) h1]
    simp [hf, callSeq_ok, ← total_map, h2]
  · intro hge σ env henv hb
    have hf : env k.fn = none := by cases k; exacts [henv.2.1, henv.2.2.1]
    rw [he, ← hs2 σ env (fun e' he' => henv.sub (fun x hx => (hv x).2 ⟨e', he', hx⟩)) (hg hge)
      (fun e' he' x hx => hb x ((hv x).2 ⟨e', he', hx⟩)), Ast.eval]
    simp only [hf, callSeq_ok]
    rfl

theorem Sem.congr {ρ : Store} {e e' : Expr} {a} (hv : ∀ x, x ∈ e'.vars ↔ x ∈ e.vars) (hg : e'.eager = true → e.eager = true)
    (h : ∀ σ, e'.eval ρ σ = e.eval ρ σ) (hs : Sem ρ e a) : Sem ρ e' a :=
  ⟨fun σ env he v hev => hs.ok σ env (he.sub fun x hx => (hv x).2 hx) v (by rw [← h]; exact hev),
   fun hge σ env he hb => by rw [h]; exact hs.same (hg hge) σ env (he.sub fun x hx => (hv x).2 hx) (fun x hx => hb x ((hv x).2 hx))⟩

theorem Good.congr {ρ : Store} {e e' : Expr} {t L} (hv : ∀ x, x ∈ e'.vars ↔ x ∈ e.vars) (hge : e'.eager = true → e.eager = true)
    (h : ∀ σ, e'.eval ρ σ = e.eval ρ σ) (hg : Good ρ e t L) : Good ρ e' t L := by
  obtain ⟨a, o, p, s⟩ := hg
  exact ⟨a, o, p, s.congr hv hge h⟩

/-- Two printed values. -/
theorem good_two {ρ : Store} (k : AccKind) {l r : Expr} {tl tr L R} (hl : Good ρ l tl L) (hr : Good ρ r tr R)
    (hL : k.lvl + 1 ≤ L) (hR : k.lvl + 1 ≤ R) {e : Expr} (hv : ∀ x, x ∈ e.vars ↔ x ∈ l.vars ∨ x ∈ r.vars)
    (hg : e.eager = true → l.eager = true ∧ r.eager = true) (he : ∀ σ, e.eval ρ σ = Expr.evalAcc ρ σ k k.neutral [l, r]) :
    Good ρ e (tl ++ .op k.sym :: tr) k.lvl := by
  obtain ⟨a, _, pa, sa⟩ := hl
  obtain ⟨b, _, pb, sb⟩ := hr
  have hm : k.lvl = 6 ∨ k.lvl = 7 := by cases k <;> simp [AccKind.lvl]
  have ho : k.sym.level = some k.lvl := by cases k <;> rfl
  have hp := (Chain.op hm ho ((pa (by omega)).chain hm hL) (pb (by omega)) hR).2
  refine .of_phrase hp (by omega) ⟨?_, ?_⟩
  · intro σ env henv v hev
    rw [he] at hev
    obtain ⟨h1, h2⟩ := acc_ok_iff.1 (show (Expr.acc k k.neutral [l, r]).eval ρ σ = .ok v from by rw [Expr.eval]; exact hev)
    rw [allOk_cons, allOk_cons] at h1
    have e1 := sa.ok σ env (henv.sub fun x hx => (hv x).2 (.inl hx)) _ h1.1
    have e2 := sb.ok σ env (henv.sub fun x hx => (hv x).2 (.inr hx)) _ h1.2.1
    cases k <;> simp [mkBin, AccKind.sym, OpTok.level, Ast.eval, e1, e2, OpTok.arith] <;>
      simpa [Satisfy.total, AccKind.op, AccKind.neutral] using h2
  · intro hge σ env henv hb
    have e1 := sa.same (hg hge).1 σ env (henv.sub fun x hx => (hv x).2 (.inl hx)) (fun x hx => hb x ((hv x).2 (.inl hx)))
    have e2 := sb.same (hg hge).2 σ env (henv.sub fun x hx => (hv x).2 (.inr hx)) (fun x hx => hb x ((hv x).2 (.inr hx)))
    rw [he]
    simp only [Expr.evalAcc]
    cases hl : l.eval ρ σ with
    | error er => cases k <;> simp [mkBin, AccKind.sym, OpTok.level, Ast.eval, e1, hl]
    | ok x =>
      cases hr : r.eval ρ σ with
      | error er => cases k <;> simp [mkBin, AccKind.sym, OpTok.level, Ast.eval, e1, hl, e2, hr]
      | ok y => cases k <;> simp [mkBin, AccKind.sym, OpTok.level, Ast.eval, e1, hl, e2, hr, OpTok.arith, AccKind.op, AccKind.neutral]

theorem acc_const {ρ : Store} {σ : Subst} (k : AccKind) (c : Int) (es : List Expr) :
    (Expr.acc k c es).eval ρ σ = Expr.evalAcc ρ σ k k.neutral (.const c :: es) := by
  rw [Expr.eval, Expr.evalAcc, Expr.eval, ok_bind]
  cases k <;> simp [AccKind.op, AccKind.neutral]

theorem good_acc {ρ : Store} {k : AccKind} {c : Int} {es : List Expr} {ts : List (List Tok)} {Ls : List Nat} {L : Nat}
    (h : GoodL ρ es ts Ls) (hL : accLvl k c Ls = some L) : Good ρ (.acc k c es) (accToks k c ts) L := by
  by_cases hc : c = k.neutral
  · subst hc
    have e1 : ∀ ts : List (List Tok), accToks k k.neutral ts = match ts with
      | [] => intToks k.neutral
      | [v] => v
      | [v, w] => v ++ .op k.sym :: w
      | vs => [.name k.fn, .lpar, .lbrk] ++ joinToks vs ++ [.rbrk, .rpar] := by
      intro ts; simp only [accToks, ne_eq, not_true_eq_false, if_false, List.nil_append]; rfl
    have e2 : ∀ Ls, accLvl k k.neutral Ls = match Ls with
      | [] => some 10 | [l] => some l | [a, b] => if k.lvl + 1 ≤ a ∧ k.lvl + 1 ≤ b then some k.lvl else none | _ => some 10 := by
      intro Ls; simp only [accLvl, ne_eq, not_true_eq_false, if_false, List.nil_append]; rfl
    rw [e1]; rw [e2] at hL
    match h with
    | .nil =>
      simp only [Option.some.injEq] at hL ⊢; subst hL
      have := good_int ρ k.neutral (e := .acc k k.neutral []) (by intro σ; simp [Expr.eval, Expr.evalAcc])
      have hl : intLvl k.neutral = 10 := by cases k <;> rfl
      rwa [hl] at this
    | .cons (e := e) h .nil =>
      simp only [Option.some.injEq] at hL ⊢; subst hL
      refine h.congr (by simp) (by simp [Expr.eager, eagers]) ?_
      intro σ
      rw [Expr.eval, Expr.evalAcc]
      cases e.eval ρ σ with
      | error er => rfl
      | ok v => cases k <;> simp [Expr.evalAcc, AccKind.op, AccKind.neutral]
    | .cons h1 (.cons h2 .nil) =>
      simp only [Option.ite_none_right_eq_some, Option.some.injEq] at hL ⊢
      obtain ⟨⟨hL1, hL2⟩, rfl⟩ := hL
      exact good_two k h1 h2 hL1 hL2 (by simp) (by simp [Expr.eager, eagers]) (fun σ => by rw [Expr.eval])
    | .cons h1 (.cons h2 (.cons h3 hs)) =>
      simp only [Option.some.injEq] at hL ⊢; subst hL
      exact good_call k (.cons h1 (.cons h2 (.cons h3 hs))) (by simp) (by intro x; simp) (fun hg => eagers_iff.1 (by rw [← hg, Expr.eager]))
        (fun σ => by rw [Expr.eval])
  · have e1 : ∀ ts : List (List Tok), accToks k c ts = match ts with
      | [] => intToks c
      | [w] => intToks c ++ .op k.sym :: w
      | vs => [.name k.fn, .lpar, .lbrk] ++ joinToks (intToks c :: vs) ++ [.rbrk, .rpar] := by
      intro ts; simp only [accToks, hc, ne_eq, not_false_eq_true, if_true, List.singleton_append]
      match ts with
      | [] => rfl
      | [w] => rfl
      | w :: w' :: ws => rfl
    have e2 : ∀ Ls, accLvl k c Ls = match Ls with
      | [] => some (intLvl c) | [b] => if k.lvl + 1 ≤ intLvl c ∧ k.lvl + 1 ≤ b then some k.lvl else none | _ => some 10 := by
      intro Ls; simp only [accLvl, hc, ne_eq, not_false_eq_true, if_true, List.singleton_append]
      match Ls with
      | [] => rfl
      | [w] => rfl
      | w :: w' :: ws => rfl
    rw [e1]; rw [e2] at hL
    match h with
    | .nil =>
      simp only [Option.some.injEq] at hL ⊢; subst hL
      exact good_int ρ c (by intro σ; simp [Expr.eval, Expr.evalAcc])
    | .cons (e := e) h .nil =>
      simp only [Option.ite_none_right_eq_some, Option.some.injEq] at hL ⊢
      obtain ⟨⟨hL1, hL2⟩, rfl⟩ := hL
      have hcst : Good ρ (.const c) (intToks c) (intLvl c) := good_int ρ c (by intro σ; simp [Expr.eval])
      exact good_two k hcst h hL1 hL2 (by intro x; simp only [mem_vars_acc]; simp [Expr.vars]) (by simp [Expr.eager, eagers]) (fun σ => acc_const k c _)
    | .cons h1 (.cons h2 hs) =>
      simp only [Option.some.injEq] at hL ⊢; subst hL
      have hcst : Good ρ (.const c) (intToks c) (intLvl c) := good_int ρ c (by intro σ; simp [Expr.eval])
      exact good_call k (.cons hcst (.cons h1 (.cons h2 hs))) (by simp) (by intro x; simp only [mem_vars_acc]; simp [Expr.vars])
        (fun hg => by
          rw [Expr.eager, eagers_iff] at hg
          intro e' he'
          rcases List.mem_cons.1 he' with rfl | he'
          · rfl
          · exact hg e' he') (fun σ => acc_const k c _)

/-! ### unary operators printed with `str` -/

theorem joinToks_head (t : List Tok) (ts) (h : ∀ r, t ≠ .lbrk :: r) (hne : t ≠ []) : ∀ r, joinToks (t :: ts) ≠ .lbrk :: r := by
  intro r
  cases t with
  | nil => exact absurd rfl hne
  | cons x t => cases ts <;> (simp [joinToks]; intro hx; subst hx; exact absurd rfl (h t))

theorem intToks_head (n : Int) : ∀ r, intToks n ≠ .lbrk :: r := by
  intro r; unfold intToks; split <;> simp

theorem str_head (e : Expr) : (∀ r, e.strToks ≠ .lbrk :: r) ∧ e.strToks ≠ [] := by
  have hi : ∀ n, intToks n ≠ [] := by intro n; unfold intToks; split <;> simp
  induction e using Expr.induct with
  | hc v => simp [Expr.strToks]; exact ⟨intToks_head v, hi v⟩
  | hv x => simp [Expr.strToks]
  | hp i n => simp [Expr.strToks]
  | hu op e ih => cases op <;> simp [Expr.strToks]
  | hb op l r _ _ => simp [Expr.strToks]
  | ha k c es ih =>
    rw [Expr.strToks]
    have he : ∀ ts : List (List Tok), (∀ t ∈ ts, (∀ r, t ≠ .lbrk :: r) ∧ t ≠ []) →
        (∀ r, accToks k c ts ≠ .lbrk :: r) ∧ accToks k c ts ≠ [] := by
      intro ts hts
      unfold accToks
      have hall : ∀ t ∈ (if c ≠ k.neutral then [intToks c] else []) ++ ts, (∀ r, t ≠ .lbrk :: r) ∧ t ≠ [] := by
        intro t ht
        rw [List.mem_append] at ht
        rcases ht with ht | ht
        · split at ht
          · simp at ht; subst ht; exact ⟨intToks_head c, hi c⟩
          · simp at ht
        · exact hts t ht
      split
      · exact ⟨intToks_head _, hi _⟩
      · rename_i v heq; exact hall v (by rw [heq]; simp)
      · rename_i v w heq
        obtain ⟨h1, h2⟩ := hall v (by rw [heq]; simp)
        cases v with
        | nil => exact absurd rfl h2
        | cons x v => simp; intro hx; subst hx; exact absurd rfl (h1 v)
      · simp
    apply he
    intro t ht
    clear he
    induction es with
    | nil => simp [Expr.strToksList] at ht
    | cons e es ihl =>
      simp only [Expr.strToksList, List.mem_cons] at ht
      rcases ht with rfl | ht
      · exact ih e (by simp)
      · exact ihl (fun e he => ih e (by simp [he])) ht

theorem sem_un {ρ : Store} {o : UOp} {e : Expr} {a b : Ast} (ha : Sem ρ e a)
    (hb : ∀ σ env, EnvOk σ env e.vars → b.eval env = (do let v ← a.eval env; return o.op v)) : Sem ρ (.un o e) b := by
  constructor
  · intro σ env he v hv
    have he' : EnvOk σ env e.vars := he.sub (by simp)
    rw [Expr.eval, bind_eq_ok] at hv
    obtain ⟨x, hx, hv⟩ := hv
    rw [hb σ env he', ha.ok σ env he' x hx]
    exact hv
  · intro hg σ env he hbd
    have he' : EnvOk σ env e.vars := he.sub (by simp)
    rw [hb σ env he', ha.same (by simpa [Expr.eager] using hg) σ env he' (fun x hx => hbd x (by simpa using hx)), Expr.eval]

theorem good_neg {ρ : Store} {e : Expr} {t L} (h : Good ρ e t L) :
    Good ρ (.un .neg e) (.op .minus :: .lpar :: t ++ [.rpar]) 8 := by
  obtain ⟨a, oa, _, sa⟩ := h
  refine .of_phrase ((Phrase.paren oa.zero).minus (by omega)) (by omega) ?_
  exact sem_un sa (fun σ env _ => by rw [Ast.eval]; rfl)

theorem good_not {ρ : Store} {e : Expr} {t} {L : Nat} (h : Good ρ e t L) (hL : 2 ≤ L) :
    Good ρ (.un .not e) (.op .not :: t) 2 := by
  obtain ⟨a, _, pa, sa⟩ := h
  refine .of_phrase ((pa (by omega)).not hL) (by omega) ?_
  exact sem_un sa (fun σ env _ => by rw [Ast.eval]; rfl)

theorem good_abs {ρ : Store} {e : Expr} {t L} (h : Good ρ e t L) (hb : ∀ r, t ≠ .lbrk :: r) :
    Good ρ (.un .abs e) (.name "abs" :: .lpar :: t ++ [.rpar]) 10 := by
  obtain ⟨a, oa, _, sa⟩ := h
  refine .of_phrase (Phrase.call oa.zero "abs" hb) (by omega) ?_
  refine sem_un sa (fun σ env he => ?_)
  rw [Ast.eval]
  cases a.eval env with
  | error er => rfl
  | ok v => simp [he.2.2.2, callNum, UOp.op]

theorem sym_eq {o : BOp} (h : ¬ (o = .div ∨ o = .and ∨ o = .or)) : o.sym = o.pySym := by
  cases o <;> simp_all [BOp.sym]

theorem str_good (ρ : Store) (e : Expr) (hn : ∀ x ∈ e.vars, NameOk x) : ∀ L, strLvl e = some L → Good ρ e e.strToks L := by
  induction e using Expr.induct with
  | hc v => intro L h; simp [strLvl] at h; subst h; rw [Expr.strToks]; exact good_int ρ v (by intro σ; simp [Expr.eval])
  | hv x =>
    intro L h; simp [strLvl] at h; subst h; rw [Expr.strToks]
    exact good_var ρ (hn x (by simp [Expr.vars]))
  | hp i n => intro L h; simp [strLvl] at h
  | hu op e ih =>
    intro L h
    have hn' : ∀ x ∈ e.vars, NameOk x := fun x hx => hn x (by simpa using hx)
    cases op with
    | neg =>
      rw [strLvl] at h
      split at h
      · rename_i l hl; injection h with h; subst h; rw [Expr.strToks]; exact good_neg (ih hn' l hl)
      · simp at h
    | abs =>
      rw [strLvl] at h
      split at h
      · rename_i l hl; injection h with h; subst h; rw [Expr.strToks]; exact good_abs (ih hn' l hl) (str_head e).1
      · simp at h
    | not => simp [strLvl] at h
  | hb o l r ihl ihr =>
    intro L h
    rw [strLvl] at h
    split at h
    · simp at h
    · rename_i ho
      split at h
      · rename_i a b ha hb
        split at h
        · rename_i hneed
          injection h with h; subst h
          rw [Expr.strToks, sym_eq ho]
          exact good_bin (by tauto) (ihl (fun x hx => hn x (by simp [hx])) a ha)
            (ihr (fun x hx => hn x (by simp [hx])) b hb) hneed.1 hneed.2
        · simp at h
      · simp at h
  | ha k c es ih =>
    intro L h
    rw [strLvl] at h
    split at h
    · rename_i ls hls
      rw [Expr.strToks]
      refine good_acc ?_ h
      clear h
      induction es generalizing ls with
      | nil => simp [strLvls] at hls; subst hls; exact .nil
      | cons e es ihl =>
        rw [strLvls] at hls
        split at hls
        · rename_i l ls' h1 h2
          injection hls with hls; subst hls
          rw [Expr.strToksList]
          exact .cons (ih e (by simp) (fun x hx => hn x (by simp [hx])) l h1)
            (ihl (fun e he => ih e (by simp [he])) (fun x hx => hn x (by
              simp only [mem_vars_acc] at hx ⊢; obtain ⟨e', he', hx⟩ := hx; exact ⟨e', by simp [he'], hx⟩)) ls' h2)
        · simp at hls
    · simp at h

theorem py_good (ρ : Store) (e : Expr) (hn : ∀ x ∈ e.vars, NameOk x) : ∀ L, pyLvl ρ e = some L → Good ρ e (e.pyToks ρ) L := by
  induction e using Expr.induct with
  | hc v => intro L h; simp [pyLvl] at h; subst h; rw [Expr.pyToks]; exact good_int ρ v (by intro σ; simp [Expr.eval])
  | hv x =>
    intro L h; simp [pyLvl] at h; subst h; rw [Expr.pyToks]
    exact good_var ρ (hn x (by simp [Expr.vars]))
  | hp i n => intro L h; simp [pyLvl] at h; subst h; rw [Expr.pyToks]; exact good_int ρ (ρ i) (by intro σ; simp [Expr.eval])
  | hu op e ih =>
    intro L h
    have hn' : ∀ x ∈ e.vars, NameOk x := fun x hx => hn x (by simpa using hx)
    cases op with
    | neg => rw [pyLvl] at h; rw [Expr.pyToks]; exact str_good ρ _ hn L h
    | abs => rw [pyLvl] at h; rw [Expr.pyToks]; exact str_good ρ _ hn L h
    | not =>
      rw [pyLvl] at h
      split at h
      · rename_i l hl
        split at h
        · rename_i h2; injection h with h; subst h; rw [Expr.pyToks]; exact good_not (ih hn' l hl) h2
        · simp at h
      · simp at h
  | hb o l r ihl ihr =>
    intro L h
    rw [pyLvl] at h
    split at h
    · rename_i a b ha hb
      have gl := ihl (fun x hx => hn x (by simp [hx])) a ha
      have gr := ihr (fun x hx => hn x (by simp [hx])) b hb
      split at h
      · rename_i ho; subst ho
        injection h with h; subst h
        rw [Expr.pyToks]; exact good_or gl gr
      · rename_i ho
        split at h
        · rename_i hneed
          injection h with h; subst h
          have : (Expr.bin o l r).pyToks ρ = .lpar :: l.pyToks ρ ++ .op o.pySym :: r.pyToks ρ ++ [.rpar] := by
            rw [Expr.pyToks]; exact ho
          rw [this]
          exact good_bin ho gl gr hneed.1 hneed.2
        · simp at h
    · simp at h
  | ha k c es ih =>
    intro L h
    rw [pyLvl] at h
    split at h
    · rename_i ls hls
      rw [Expr.pyToks]
      refine good_acc ?_ h
      clear h
      induction es generalizing ls with
      | nil => simp [pyLvls] at hls; subst hls; exact .nil
      | cons e es ihl =>
        rw [pyLvls] at hls
        split at hls
        · rename_i l ls' h1 h2
          injection hls with hls; subst hls
          rw [Expr.pyToksList]
          exact .cons (ih e (by simp) (fun x hx => hn x (by simp [hx])) l h1)
            (ihl (fun e he => ih e (by simp [he])) (fun x hx => hn x (by
              simp only [mem_vars_acc] at hx ⊢; obtain ⟨e', he', hx⟩ := hx; exact ⟨e', by simp [he'], hx⟩)) ls' h2)
        · simp at hls
    · simp at h

/-- A safe expression compiles to a real function, whose call agrees with `evaluate` wherever that
succeeds. -/
theorem safe_compile {ρ : Store} {e : Expr} (h : e.Safe ρ) :
    ∃ a, asFunction ρ e = .fn e.vars a ∧ (∀ σ v, e.eval ρ σ = .ok v → (asFunction ρ e).call σ = .ok v) ∧
      (e.eager = true → ∀ σ, (∀ x ∈ e.vars, σ.get? x ≠ none) → (asFunction ρ e).call σ = e.eval ρ σ) := by
  obtain ⟨hl, hn⟩ := h
  obtain ⟨L, hL⟩ := Option.isSome_iff_exists.1 hl
  obtain ⟨a, oa, _, sa⟩ := py_good ρ e hn L hL
  have hk : e.vars.any (fun x => !isIdent x || decide (x ∈ pyKeywords) || decide (x = dummyName)) = false := by
    rw [List.any_eq_false]
    intro x hx
    have := hn x hx
    simp only [this.1, Bool.not_true, Bool.false_or, Bool.or_eq_true, decide_eq_true_eq]
    rintro (h | rfl)
    · exact keyword_not_ok x h this
    · exact absurd this (by decide)
  have hf : asFunction ρ e = .fn e.vars a := by
    unfold asFunction
    rw [hk, parseBody_ok oa.zero]; rfl
  have hcall : ∀ σ : Subst, (∀ x ∈ e.vars, σ.get? x ≠ none) → (asFunction ρ e).call σ = a.eval (fun x => if x ∈ e.vars then σ.get? x else none) := by
    intro σ hb
    rw [hf, Compiled.call, if_pos]
    rw [List.all_eq_true]
    intro x hx
    obtain ⟨w, hw⟩ := Option.ne_none_iff_exists'.1 (hb x hx)
    simp [Dict.has, hw]
  have henv : ∀ σ : Subst, EnvOk σ (fun x => if x ∈ e.vars then σ.get? x else none) e.vars := by
    intro σ
    refine ⟨fun x hx => by simp [hx], ?_, ?_, ?_⟩
    all_goals exact if_neg (fun hx => absurd (hn _ hx) (by decide))
  refine ⟨a, hf, fun σ v hv => ?_, fun hg σ hb => ?_⟩
  · rw [hcall σ (fun x hx => by obtain ⟨w, hw⟩ := eval_ok_bound hv x hx; rw [hw]; simp)]
    exact sa.ok σ _ (henv σ) v hv
  · rw [hcall σ hb]
    exact sa.same hg σ _ (henv σ) hb

end Satisfy
