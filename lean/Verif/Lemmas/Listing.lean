import Verif.Lemmas.Source
import Verif.Lemmas.Compile
import Verif.SpecListing
/-! # Reading a listing back -/

namespace Satisfy

/-- The operator printed as such. -/
def symOp : OpTok → Option BOp
  | .plus => some .add | .minus => some .sub | .star => some .mul | .slash => some .div | .percent => some .mod | .dstar => some .pow
  | .eq => some .eq | .ne => some .ne | .lt => some .lt | .le => some .le | .gt => some .gt | .ge => some .ge
  | .amp => some .and | .bar => some .or | _ => none

theorem symOp_sym (o : BOp) : symOp o.sym = some o := by cases o <;> rfl

mutual
/-- Reading a printed expression. -/
def rdE : Nat → List Tok → Option (Expr × List Tok)
  | 0, _ => none
  | _ + 1, .num n :: r => some (.const n, r)
  | _ + 1, .op .minus :: .num n :: r => some (.const (-n), r)
  | f + 1, .op .minus :: .lpar :: r => match rdE f r with
    | some (e, .rpar :: r') => some (.un .neg e, r')
    | _ => none
  | f + 1, .op .caret :: r => match rdE f r with
    | some (e, r') => some (.un .not e, r')
    | none => none
  | f + 1, .lpar :: r => match rdE f r with
    | some (l, .op o :: r') => match symOp o, rdE f r' with
      | some b, some (e, .rpar :: r'') => some (.bin b l e, r'')
      | _, _ => none
    | _ => none
  | f + 1, .name x :: .lpar :: .lbrk :: r => match rdL f r with
    | some (es, .rbrk :: .rpar :: r') => let k : AccKind := if x = "sum" then .sum else .prod; some (.acc k k.neutral es, r')
    | _ => none
  | f + 1, .name _ :: .lpar :: r => match rdE f r with
    | some (e, .rpar :: r') => some (.un .abs e, r')
    | _ => none
  | _ + 1, .name x :: r => some (.var x, r)
  | _ + 1, _ => none
/-- Reading a list of printed expressions. -/
def rdL : Nat → List Tok → Option (List Expr × List Tok)
  | 0, _ => none
  | f + 1, r => match rdE f r with
    | some (e, .comma :: r') => match rdL f r' with
      | some (es, r'') => some (e :: es, r'')
      | none => none
    | some (e, r') => some ([e], r')
    | none => none
end

/-- The values an accumulation shows. -/
def accNorm (k : AccKind) (c : Int) (es : List Expr) : Expr :=
  match (if c ≠ k.neutral then [Expr.const c] else []) ++ es with
  | [] => .const k.neutral
  | [v] => v
  | vs => .acc k k.neutral vs

mutual
/-- What the reader makes of an expression. -/
def Expr.norm : Expr → Expr
  | .const v => .const v
  | .var x => .var x
  | .param _ n => .var n
  | .un o e => .un o e.norm
  | .bin o l r => .bin o l.norm r.norm
  | .acc k c es => accNorm k c (Expr.normL es)
def Expr.normL : List Expr → List Expr
  | [] => []
  | e :: es => e.norm :: Expr.normL es
end

theorem normL_eq (es : List Expr) : Expr.normL es = es.map Expr.norm := by
  induction es with
  | nil => rfl
  | cons e es ih => simp [Expr.normL, ih]

theorem strToksList_eq (es : List Expr) : Expr.strToksList es = es.map Expr.strToks := by
  induction es with
  | nil => rfl
  | cons e es ih => simp [Expr.strToksList, ih]

theorem bracketedAll_iff (es : List Expr) : Expr.bracketedAll es = true ↔ ∀ e ∈ es, e.bracketed = true := by
  induction es with
  | nil => simp [Expr.bracketedAll]
  | cons e es ih => simp [Expr.bracketedAll, ih]

/-! ### the reader reads -/

/-- With enough fuel `ts` is read as `e`, unless an opening bracket follows. -/
def RdsAs (ts : List Tok) (e : Expr) : Prop :=
  ∃ N, ∀ f, N ≤ f → ∀ r, (∀ q, r ≠ .lpar :: q) → rdE f (ts ++ r) = some (e, r)

theorem rds_int (n : Int) : RdsAs (intToks n) (.const n) := by
  refine ⟨1, fun f hf r _ => ?_⟩
  obtain ⟨f, rfl⟩ : ∃ g, f = g + 1 := ⟨f - 1, by omega⟩
  unfold intToks
  split
  · simp only [List.cons_append, List.nil_append, rdE]
    congr 3; omega
  · simp only [List.cons_append, List.nil_append, rdE]
    congr 3; omega

theorem rds_name (x : Name) : RdsAs [.name x] (.var x) := by
  refine ⟨1, fun f hf r hr => ?_⟩
  obtain ⟨f, rfl⟩ : ∃ g, f = g + 1 := ⟨f - 1, by omega⟩
  cases r with
  | nil => rfl
  | cons t r => cases t <;> first | rfl | exact absurd rfl (hr r)

inductive RdsAll : List (List Tok) → List Expr → Prop
  | nil : RdsAll [] []
  | cons {t e ts es} : RdsAs t e → RdsAll ts es → RdsAll (t :: ts) (e :: es)

theorem rds_list {ts : List (List Tok)} {es : List Expr} (h : RdsAll ts es) (hne : ts ≠ []) :
    ∃ N, ∀ f, N ≤ f → ∀ r, rdL f (joinToks ts ++ .rbrk :: r) = some (es, .rbrk :: r) := by
  induction h with
  | nil => exact absurd rfl hne
  | @cons t e ts es h hs ih =>
    obtain ⟨N, hN⟩ := h
    cases hs with
    | nil =>
      refine ⟨N + 1, fun f hf r => ?_⟩
      obtain ⟨f, rfl⟩ : ∃ g, f = g + 1 := ⟨f - 1, by omega⟩
      have := hN f (by omega) (.rbrk :: r) (by simp)
      simp only [joinToks] at this ⊢
      rw [rdL, this]
    | @cons t' e' ts es h' hs =>
      obtain ⟨M, hM⟩ := ih (by simp)
      refine ⟨max N M + 1, fun f hf r => ?_⟩
      obtain ⟨f, rfl⟩ : ∃ g, f = g + 1 := ⟨f - 1, by omega⟩
      have e1 := hN f (by omega) (.comma :: (joinToks (t' :: ts) ++ .rbrk :: r)) (by simp)
      have e2 := hM f (by omega) r
      simp only [joinToks, List.append_assoc, List.cons_append] at e1 ⊢
      rw [rdL, e1]
      simp only
      rw [e2]

theorem rds_call (k : AccKind) {ts : List (List Tok)} {es : List Expr} (h : RdsAll ts es) (hne : ts ≠ []) :
    RdsAs ([.name k.fn, .lpar, .lbrk] ++ joinToks ts ++ [.rbrk, .rpar]) (.acc k k.neutral es) := by
  obtain ⟨N, hN⟩ := rds_list h hne
  refine ⟨N + 1, fun f hf r _ => ?_⟩
  obtain ⟨f, rfl⟩ : ∃ g, f = g + 1 := ⟨f - 1, by omega⟩
  have := hN f (by omega) (.rpar :: r)
  simp only [List.cons_append, List.nil_append, List.append_assoc] at this ⊢
  rw [rdE, this]
  cases k <;> simp [AccKind.fn]

theorem rds_acc {k : AccKind} {c : Int} {ts : List (List Tok)} {es : List Expr} (h : RdsAll ts es)
    (h2 : (if c = k.neutral then 0 else 1) + es.length ≠ 2) : RdsAs (accToks k c ts) (accNorm k c es) := by
  have key : ∀ {ts : List (List Tok)} {es : List Expr}, RdsAll ts es → es.length ≠ 2 →
      RdsAs (match ts with
        | [] => intToks k.neutral
        | [v] => v
        | [v, w] => v ++ .op k.sym :: w
        | vs => [.name k.fn, .lpar, .lbrk] ++ joinToks vs ++ [.rbrk, .rpar])
      (match es with
        | [] => .const k.neutral
        | [v] => v
        | vs => .acc k k.neutral vs) := by
    intro ts es h h2
    match h with
    | .nil => exact rds_int _
    | .cons h .nil => exact h
    | .cons h1 (.cons h2' .nil) => exact absurd rfl h2
    | .cons h1 (.cons h2' (.cons h3 hs)) => exact rds_call k (.cons h1 (.cons h2' (.cons h3 hs))) (by simp)
  unfold accToks accNorm
  by_cases hc : c = k.neutral
  · simp only [hc, ne_eq, not_true_eq_false, if_false, List.nil_append, if_true] at h2 ⊢
    exact key h (by omega)
  · simp only [hc, ne_eq, not_false_eq_true, if_true, List.singleton_append, if_false] at h2 ⊢
    exact key (.cons (rds_int c) h) (by simp; omega)

theorem rds_all {es : List Expr} (h : ∀ e ∈ es, RdsAs e.strToks e.norm) : RdsAll (Expr.strToksList es) (Expr.normL es) := by
  induction es with
  | nil => exact .nil
  | cons e es ih => exact .cons (h e (by simp)) (ih (fun e he => h e (by simp [he])))

theorem normL_length (es : List Expr) : (Expr.normL es).length = es.length := by rw [normL_eq]; simp

theorem rds_str (e : Expr) (h : e.bracketed = true) : RdsAs e.strToks e.norm := by
  induction e using Expr.induct with
  | hc v => exact rds_int v
  | hv x => exact rds_name x
  | hp i n => cases h
  | hu o e ih =>
    obtain ⟨N, hN⟩ := ih h
    refine ⟨N + 1, fun f hf r hr => ?_⟩
    obtain ⟨f, rfl⟩ : ∃ g, f = g + 1 := ⟨f - 1, by omega⟩
    cases o with
    | neg =>
      have := hN f (by omega) (.rpar :: r) (by simp)
      simp only [Expr.strToks, Expr.norm, List.cons_append, List.append_assoc, List.nil_append]
      rw [rdE, this]
    | abs =>
      have := hN f (by omega) (.rpar :: r) (by simp)
      have hh := str_head e
      simp only [Expr.strToks, Expr.norm, List.cons_append, List.append_assoc, List.nil_append]
      obtain ⟨t, ts, ht⟩ : ∃ t ts, e.strToks = t :: ts := by
        cases h' : e.strToks with
        | nil => exact absurd h' hh.2
        | cons t ts => exact ⟨t, ts, rfl⟩
      have hne : t ≠ .lbrk := by rintro rfl; exact hh.1 _ ht
      rw [ht, List.cons_append] at this ⊢
      rw [rdE, this]
      intro q hq; injection hq with hq; exact hne hq
    | not =>
      have := hN f (by omega) r hr
      simp only [Expr.strToks, Expr.norm, List.cons_append]
      rw [rdE, this]
  | hb o l r ihl ihr =>
    simp only [Expr.bracketed, Bool.and_eq_true] at h
    obtain ⟨N, hN⟩ := ihl h.1
    obtain ⟨M, hM⟩ := ihr h.2
    refine ⟨max N M + 1, fun f hf q hq => ?_⟩
    obtain ⟨f, rfl⟩ : ∃ g, f = g + 1 := ⟨f - 1, by omega⟩
    have e1 := hN f (by omega) (.op o.sym :: (r.strToks ++ .rpar :: q)) (by simp)
    have e2 := hM f (by omega) (.rpar :: q) (by simp)
    simp only [Expr.strToks, Expr.norm, List.cons_append, List.append_assoc, List.nil_append]
    rw [rdE, e1]
    simp only [symOp_sym, e2]
  | ha k c es ih =>
    simp only [Expr.bracketed, Bool.and_eq_true, decide_eq_true_eq, bracketedAll_iff] at h
    rw [Expr.strToks, Expr.norm]
    exact rds_acc (rds_all fun e he => ih e he (h.2 e he)) (by rw [normL_length]; exact h.1)

/-! ### and what it reads has the same value -/

theorem eval_normL {ρ ρ' : Store} {σ : Subst} {k : AccKind} (es : List Expr) (h : ∀ e ∈ es, e.norm.eval ρ' σ = e.eval ρ σ) (c : Int) :
    Expr.evalAcc ρ' σ k c (Expr.normL es) = Expr.evalAcc ρ σ k c es := by
  induction es generalizing c with
  | nil => rfl
  | cons e es ih =>
    rw [Expr.normL, Expr.evalAcc, Expr.evalAcc, h e (by simp)]
    congr 1; funext v
    exact ih (fun e he => h e (by simp [he])) _

theorem eval_norm (ρ ρ' : Store) (σ : Subst) (e : Expr) (h : e.bracketed = true) : e.norm.eval ρ' σ = e.eval ρ σ := by
  induction e using Expr.induct with
  | hc v => rfl
  | hv x => rfl
  | hp i n => cases h
  | hu o e ih => rw [Expr.norm, Expr.eval, Expr.eval, ih h]
  | hb o l r ihl ihr =>
    simp only [Expr.bracketed, Bool.and_eq_true] at h
    rw [Expr.norm, Expr.eval, Expr.eval, ihl h.1, ihr h.2]
  | ha k c es ih =>
    simp only [Expr.bracketed, Bool.and_eq_true, decide_eq_true_eq, bracketedAll_iff] at h
    have hl := eval_normL (k := k) es (fun e he => ih e he (h.2 e he))
    have hop : ∀ v, k.op k.neutral v = v := by intro v; cases k <;> simp [AccKind.op, AccKind.neutral]
    have one : ∀ (e : Expr), Expr.evalAcc ρ' σ k k.neutral [e] = e.eval ρ' σ := by
      intro e
      rw [Expr.evalAcc]
      cases e.eval ρ' σ <;> simp [Expr.evalAcc, hop, bind, Except.bind]
    rw [Expr.norm, Expr.eval, ← hl]
    generalize Expr.normL es = es'
    unfold accNorm
    by_cases hc : c = k.neutral
    · subst hc
      simp only [ne_eq, not_true_eq_false, if_false, List.nil_append]
      match es' with
      | [] => rfl
      | [v] => exact (one v).symm
      | _ :: _ :: _ => rfl
    · simp only [hc, ne_eq, not_false_eq_true, if_true, List.singleton_append]
      match es' with
      | [] => rfl
      | _ :: _ =>
        rw [Expr.eval, Expr.evalAcc]
        simp [Expr.eval, hop, bind, Except.bind]

theorem norm_vars (e : Expr) : ∀ x, e.norm = .var x → e.bracketed = true → x ∈ e.vars := by
  induction e using Expr.induct with
  | hc v => intro x h; cases h
  | hv y => intro x h _; cases h; simp [Expr.vars]
  | hp i n => intro x _ h; cases h
  | hu o e ih => intro x h; cases h
  | hb o l r ihl ihr => intro x h; cases h
  | ha k c es ih =>
    intro x h hb
    simp only [Expr.bracketed, Bool.and_eq_true, decide_eq_true_eq, bracketedAll_iff] at hb
    rw [Expr.norm] at h
    unfold accNorm at h
    rw [mem_vars_acc]
    match es with
    | [] => by_cases hc : c = k.neutral <;> simp [hc, Expr.normL] at h
    | [e] =>
      by_cases hc : c = k.neutral
      · simp only [hc, ne_eq, not_true_eq_false, if_false, List.nil_append, Expr.normL] at h
        exact ⟨e, by simp, ih e (by simp) x h (hb.2 e (by simp))⟩
      · simp [hc, Expr.normL] at h
    | e :: e' :: es =>
      by_cases hc : c = k.neutral
      · simp [hc, Expr.normL] at h
      · simp [hc, Expr.normL] at h

/-! ### from characters to tokens -/

theorem raw_int (n : Int) : ∀ t ∈ intToks n, rawTok t = t := by
  unfold intToks; split <;> simp [rawTok]

theorem raw_join {ts : List (List Tok)} (h : ∀ t ∈ ts, ∀ u ∈ t, rawTok u = u) : ∀ u ∈ joinToks ts, rawTok u = u := by
  match ts with
  | [] => simp [joinToks]
  | [t] => simpa [joinToks] using h
  | t :: t' :: ts =>
    intro u hu
    simp only [joinToks, List.mem_append, List.mem_cons] at hu
    rcases hu with hu | rfl | hu
    · exact h t (by simp) u hu
    · rfl
    · exact raw_join (ts := t' :: ts) (fun t ht => h t (by simp [List.mem_cons] at ht ⊢; tauto)) u hu

theorem raw_str (e : Expr) : ∀ t ∈ e.strToks, rawTok t = t := by
  induction e using Expr.induct with
  | hc v => exact raw_int v
  | hv x => simp [Expr.strToks, rawTok]
  | hp i n => simp [Expr.strToks, rawTok]
  | hu o e ih =>
    intro t ht
    cases o <;> simp only [Expr.strToks, List.mem_cons, List.mem_append, List.cons_append, List.not_mem_nil, or_false] at ht
    · rcases ht with rfl | rfl | ht | rfl <;> first | rfl | exact ih t ht
    · rcases ht with rfl | rfl | ht | rfl <;> first | rfl | exact ih t ht
    · rcases ht with rfl | ht <;> first | rfl | exact ih t ht
  | hb o l r ihl ihr =>
    intro t ht
    simp only [Expr.strToks, List.mem_cons, List.mem_append, List.cons_append, List.not_mem_nil, or_false] at ht
    rcases ht with rfl | (ht | rfl | ht) | rfl
    · rfl
    · exact ihl t ht
    · cases o <;> rfl
    · exact ihr t ht
    · rfl
  | ha k c es ih =>
    rw [Expr.strToks]
    have hall : ∀ t ∈ (if c ≠ k.neutral then [intToks c] else []) ++ Expr.strToksList es, ∀ u ∈ t, rawTok u = u := by
      intro t ht
      rw [List.mem_append] at ht
      rcases ht with ht | ht
      · split at ht
        · simp at ht; subst ht; exact raw_int c
        · simp at ht
      · rw [strToksList_eq, List.mem_map] at ht
        obtain ⟨e, he, rfl⟩ := ht
        exact ih e he
    unfold accToks
    generalize (if c ≠ k.neutral then [intToks c] else []) ++ Expr.strToksList es = vs at hall
    intro t ht
    split at ht
    · exact raw_int _ t ht
    · exact hall _ (by simp) t ht
    · rw [List.mem_append, List.mem_cons] at ht
      rcases ht with ht | rfl | ht
      · exact hall _ (by simp) t ht
      · cases k <;> rfl
      · exact hall _ (by simp) t ht
    · simp only [List.mem_append, List.mem_cons, List.not_mem_nil, or_false] at ht
      rcases ht with (ht | ht) | ht
      · rcases ht with rfl | rfl | rfl <;> rfl
      · exact raw_join hall t ht
      · rcases ht with rfl | rfl <;> rfl

/-- The tokens of a text that is read in front of any closing character. -/
theorem Reads.toks {s : List Char} {ts : List Tok} (h : Reads s ts) (hr : ∀ t ∈ ts, rawTok t = t) :
    lexGo (s ++ [']']) .start = some (ts ++ [.rbrk]) := by
  rw [h ']' [] (by simp [Follow]), show ts.map rawTok = ts from by
    conv => rhs; rw [← List.map_id ts]
    exact List.map_congr_left (by simpa using hr)]
  rfl

/-- Texts that are read contain neither newlines nor quotes. -/
theorem lex_chars {s : List Char} {p : Pending} {ts : List Tok} (h : lexGo s p = some ts) : '\n' ∉ s ∧ '\'' ∉ s := by
  induction s generalizing p ts with
  | nil => simp
  | cons c s ih =>
    rw [lexGo] at h
    have hf : ∀ ts, lexFresh '\n' ts = none ∧ lexFresh '\'' ts = none := by intro ts; constructor <;> rfl
    have hno : lexStep p '\n' = none ∧ lexStep p '\'' = none := by
      cases p with
      | start => exact ⟨rfl, rfl⟩
      | num n => exact ⟨by simp [lexStep, hf, isDig], by simp [lexStep, hf, isDig]⟩
      | name s => exact ⟨by simp [lexStep, hf, isDig], by simp [lexStep, hf, isDig]⟩
      | op a =>
        constructor
        · have : pairTok a '\n' = none := by simp [pairTok]
          simp only [lexStep, this, hf]; split <;> rfl
        · have : pairTok a '\'' = none := by simp [pairTok]
          simp only [lexStep, this, hf]; split <;> rfl
    split at h
    · cases h
    · rename_i us q hq
      cases hr : lexGo s q with
      | none => rw [hr] at h; cases h
      | some vs =>
        obtain ⟨h1, h2⟩ := ih hr
        simp only [List.mem_cons, not_or]
        refine ⟨⟨?_, h1⟩, ?_, h2⟩ <;> rintro rfl <;> simp [hno] at hq

theorem str_chars {e : Expr} (h : ∀ x ∈ e.allNames, isIdent x = true) : '\n' ∉ e.strText ∧ '\'' ∉ e.strText := by
  have := lex_chars ((reads_str e h).toks (raw_str e))
  simp at this
  exact ⟨this.1, this.2⟩

/-- Bracketed expressions with the same text are read alike. -/
theorem str_inj {e e' : Expr} (hn : ∀ x ∈ e.allNames, isIdent x = true) (hn' : ∀ x ∈ e'.allNames, isIdent x = true)
    (hb : e.bracketed = true) (hb' : e'.bracketed = true) (h : e.strText = e'.strText) : e.norm = e'.norm := by
  have h1 := (reads_str e hn).toks (raw_str e)
  have h2 := (reads_str e' hn').toks (raw_str e')
  rw [h, h2] at h1
  injection h1 with h1
  obtain ⟨N, hN⟩ := rds_str e hb
  obtain ⟨M, hM⟩ := rds_str e' hb'
  have e1 := hN (max N M) (by omega) [.rbrk] (by simp)
  have e2 := hM (max N M) (by omega) [.rbrk] (by simp)
  rw [h1, e1] at e2
  simpa using e2

/-! ### lists of ints -/

theorem reads_ints (v : Int) (l : List Int) : Reads (joinChars [',', ' '] ((v :: l).map intText)) (joinToks ((v :: l).map intToks)) := by
  have : ReadsAll (l.map intText) (l.map intToks) := by
    induction l with
    | nil => exact .nil
    | cons v l ih => exact .cons (.int v) ih
  exact (Reads.int v).join this

theorem raw_ints (l : List Int) : ∀ t ∈ joinToks (l.map intToks), rawTok t = t := by
  apply raw_join
  intro t ht
  rw [List.mem_map] at ht
  obtain ⟨v, _, rfl⟩ := ht
  exact raw_int v

theorem rds_ints (l : List Int) : RdsAll (l.map intToks) (l.map Expr.const) := by
  induction l with
  | nil => exact .nil
  | cons v l ih => exact .cons (rds_int v) ih

theorem lex_ints (v : Int) (l : List Int) :
    lexGo (joinChars [',', ' '] ((v :: l).map intText) ++ [']']) .start = some (joinToks ((v :: l).map intToks) ++ [.rbrk]) :=
  (reads_ints v l).toks (raw_ints _)

theorem ints_inj {l l' : List Int} (h : joinChars [',', ' '] (l.map intText) = joinChars [',', ' '] (l'.map intText)) : l = l' := by
  have hnil : ∀ (v : Int) (l : List Int), joinChars [',', ' '] ((v :: l).map intText) ≠ [] := by
    intro v l h
    have := lex_ints v l
    rw [h] at this
    obtain ⟨N, hN⟩ := rds_list (rds_ints (v :: l)) (by simp)
    have h2 := hN (N + 2) (by omega) []
    have hx : some ([Tok.rbrk]) = some (joinToks ((v :: l).map intToks) ++ [Tok.rbrk]) := this
    injection hx with hx
    rw [← hx] at h2
    simp [rdL, rdE] at h2
  match l, l' with
  | [], [] => rfl
  | [], v :: l => exact absurd h.symm (hnil v l)
  | v :: l, [] => exact absurd h (hnil v l)
  | v :: l, v' :: l' =>
    have h1 := lex_ints v l
    rw [h, lex_ints v' l'] at h1
    injection h1 with h1
    obtain ⟨N, hN⟩ := rds_list (rds_ints (v :: l)) (by simp)
    obtain ⟨M, hM⟩ := rds_list (rds_ints (v' :: l')) (by simp)
    have e1 := hN (max N M) (by omega) []
    have e2 := hM (max N M) (by omega) []
    rw [h1, e1] at e2
    simp only [Option.some.injEq, Prod.mk.injEq, and_true] at e2
    exact List.map_injective_iff.2 (fun a b h => by injection h) e2

/-- A tuple of one value is not the text of another tuple. -/
theorem single_ne {v : Int} {l : List Int} (h : intText v ++ [','] = joinChars [',', ' '] (l.map intText)) : False := by
  match l with
  | [] => simp [joinChars] at h
  | v' :: l =>
    have h1 := lex_ints v' l
    rw [← h] at h1
    have h2 : lexGo (intText v ++ [','] ++ [']']) .start = some (intToks v ++ [.comma, .rbrk]) := by
      have := Reads.int v ',' [']'] (by simp [Follow])
      simp only [List.append_assoc, List.cons_append, List.nil_append]
      rw [this, show (intToks v).map rawTok = intToks v from by
        conv => rhs; rw [← List.map_id (intToks v)]
        exact List.map_congr_left (by simpa using raw_int v)]
      rfl
    rw [h2] at h1
    injection h1 with h1
    obtain ⟨N, hN⟩ := rds_list (rds_ints (v' :: l)) (by simp)
    obtain ⟨M, hM⟩ := rds_int v
    have e1 := hN (max N M + 3) (by omega) []
    have e2 := hM (max N M + 2) (by omega) [.comma, .rbrk] (by simp)
    rw [← h1, rdL, e2] at e1
    simp [rdL, rdE] at e1

theorem domain_inj {d d' : PyDomain} (h : d.text = d'.text) : d.values = d'.values := by
  have tup : ∀ vs ws : List Int, (PyDomain.tuple vs).text = (PyDomain.tuple ws).text → vs = ws := by
    intro vs ws h
    have tt : ∀ vs : List Int, (∃ v, vs = [v] ∧ (PyDomain.tuple vs).text = '(' :: (intText v ++ [',']) ++ [')']) ∨
        (PyDomain.tuple vs).text = '(' :: joinChars [',', ' '] (vs.map intText) ++ [')'] := by
      intro vs
      match vs with
      | [] => exact .inr rfl
      | [v] => exact .inl ⟨v, rfl, by simp [PyDomain.text]⟩
      | v :: w :: vs => exact .inr rfl
    rcases tt vs with ⟨v, rfl, e1⟩ | e1 <;> rcases tt ws with ⟨w, rfl, e2⟩ | e2 <;> rw [e1, e2] at h <;> simp only [List.cons_append, List.cons.injEq, true_and] at h <;>
      have h := List.append_cancel_right h
    · have := List.append_cancel_right h
      exact ints_inj (l := [v]) (l' := [w]) (by simpa [joinChars] using this)
    · exact (single_ne h).elim
    · exact (single_ne h.symm).elim
    · exact ints_inj h
  have hd : ∀ vs : List Int, ∃ s, (PyDomain.tuple vs).text = '(' :: s := by
    intro vs
    match vs with
    | [] => exact ⟨_, rfl⟩
    | [v] => exact ⟨_, rfl⟩
    | v :: w :: vs => exact ⟨_, rfl⟩
  have hset : ∀ vs : List Int, ∃ c s, (PyDomain.set vs).text = c :: s ∧ (c = 's' ∨ c = '{') := by
    intro vs
    match vs with
    | [] => exact ⟨_, _, rfl, .inl rfl⟩
    | v :: vs => exact ⟨_, _, rfl, .inr rfl⟩
  match d, d' with
  | .list vs, .list ws =>
    simp only [PyDomain.text, List.cons_append, List.cons.injEq, true_and] at h
    exact ints_inj (List.append_cancel_right h)
  | .tuple vs, .tuple ws => exact tup vs ws h
  | .range a b s, .range a' b' s' =>
    simp only [PyDomain.text, List.append_assoc] at h
    have h := ints_inj (List.append_cancel_right (List.append_cancel_left h))
    simp only [PyDomain.values]
    by_cases h1 : s = 1 <;> by_cases h2 : s' = 1 <;> simp [h1, h2] at h <;> simp [h, h1, h2]
  | .list vs, .tuple ws => obtain ⟨s, hs⟩ := hd ws; rw [hs] at h; simp [PyDomain.text] at h
  | .tuple vs, .list ws => obtain ⟨s, hs⟩ := hd vs; rw [hs] at h; simp [PyDomain.text] at h
  | .list vs, .range a b s => simp [PyDomain.text] at h
  | .range a b s, .list vs => simp [PyDomain.text] at h
  | .range a b s, .tuple ws => obtain ⟨t, ht⟩ := hd ws; rw [ht] at h; simp [PyDomain.text] at h
  | .tuple ws, .range a b s => obtain ⟨t, ht⟩ := hd ws; rw [ht] at h; simp [PyDomain.text] at h
  | .set [], .set [] => rfl
  | .set [], .set (w :: ws) => simp [PyDomain.text] at h
  | .set (v :: vs), .set [] => simp [PyDomain.text] at h
  | .set (v :: vs), .set (w :: ws) =>
    simp only [PyDomain.text, List.cons_append, List.cons.injEq, true_and] at h
    exact ints_inj (List.append_cancel_right h)
  | .set vs, .tuple ws => obtain ⟨t, ht⟩ := hd ws; obtain ⟨c, u, hu, hc⟩ := hset vs; rw [ht, hu] at h; rcases hc with rfl | rfl <;> simp at h
  | .tuple ws, .set vs => obtain ⟨t, ht⟩ := hd ws; obtain ⟨c, u, hu, hc⟩ := hset vs; rw [ht, hu] at h; rcases hc with rfl | rfl <;> simp at h
  | .set vs, .list ws => obtain ⟨c, u, hu, hc⟩ := hset vs; rw [hu] at h; rcases hc with rfl | rfl <;> simp [PyDomain.text] at h
  | .list ws, .set vs => obtain ⟨c, u, hu, hc⟩ := hset vs; rw [hu] at h; rcases hc with rfl | rfl <;> simp [PyDomain.text] at h
  | .set vs, .range a b s => obtain ⟨c, u, hu, hc⟩ := hset vs; rw [hu] at h; rcases hc with rfl | rfl <;> simp [PyDomain.text] at h
  | .range a b s, .set vs => obtain ⟨c, u, hu, hc⟩ := hset vs; rw [hu] at h; rcases hc with rfl | rfl <;> simp [PyDomain.text] at h

theorem domain_chars (d : PyDomain) : '\n' ∉ d.text := by
  have hi : ∀ l : List Int, '\n' ∉ joinChars [',', ' '] (l.map intText) := by
    intro l
    match l with
    | [] => simp [joinChars]
    | v :: l =>
      have := (lex_chars (lex_ints v l)).1
      simp only [List.mem_append, not_or] at this
      exact this.1
  have h1 : ∀ v, '\n' ∉ intText v := fun v => by simpa [joinChars] using hi [v]
  match d with
  | .list vs => simp only [PyDomain.text, List.mem_append, List.mem_cons, List.cons_append, not_or]; simp [hi vs]
  | .tuple [] => decide
  | .tuple [v] => simp only [PyDomain.text, List.mem_append, List.mem_cons, List.cons_append, not_or]; simp [h1 v]
  | .tuple (v :: w :: vs) =>
    simp only [PyDomain.text, List.mem_append, List.mem_cons, List.cons_append, not_or]
    exact ⟨by decide, hi (v :: w :: vs), by decide⟩
  | .range a b s =>
    simp only [PyDomain.text, List.mem_append, not_or]
    exact ⟨⟨by decide, hi _⟩, by decide⟩
  | .set [] => decide
  | .set (v :: vs) => simp only [PyDomain.text, List.mem_append, List.mem_cons, List.cons_append, not_or]; exact ⟨by decide, hi (v :: vs), by decide⟩

/-! ### names -/

theorem ident_chars {x : Name} (h : isIdent x = true) : '\n' ∉ x.toList ∧ '\'' ∉ x.toList := by
  have := lex_chars ((Reads.ident h).toks (by simp [rawTok]))
  simp at this
  exact ⟨this.1, this.2⟩

theorem repr_plain {x : Name} (h : isIdent x = true) : reprName x = '\'' :: x.toList ++ ['\''] := by
  have hn := (ident_chars h).1
  have : x.toList.flatMap (fun c => if c = '\n' then ['\\', 'n'] else [c]) = x.toList := by
    generalize x.toList = l at hn
    induction l with
    | nil => rfl
    | cons c l ih =>
      simp only [List.mem_cons, not_or] at hn
      rw [List.flatMap_cons, ih hn.2, if_neg (Ne.symm hn.1)]; rfl
  rw [reprName, this]

/-- Texts up to the first `q`. -/
theorem split_first {q : Char} {s s' r r' : List Char} (h : s ++ q :: r = s' ++ q :: r') (hs : q ∉ s) (hs' : q ∉ s') : s = s' ∧ r = r' := by
  induction s generalizing s' with
  | nil =>
    cases s' with
    | nil => simpa using h
    | cons c s' => simp at h; exact absurd (by simp [h.1]) hs'
  | cons c s ih =>
    cases s' with
    | nil => simp at h; exact absurd (by simp [h.1]) hs
    | cons c' s' =>
      simp only [List.cons_append, List.cons.injEq, List.mem_cons, not_or] at h hs hs'
      obtain ⟨rfl, rfl⟩ := ih h.2 hs.2 hs'.2
      exact ⟨by rw [h.1], rfl⟩

theorem repr_inj {x y : Name} {r r' : List Char} (hx : isIdent x = true) (hy : isIdent y = true) (h : reprName x ++ r = reprName y ++ r') :
    x = y ∧ r = r' := by
  rw [repr_plain hx, repr_plain hy] at h
  simp only [List.cons_append, List.append_assoc, List.cons.injEq, true_and, List.nil_append] at h
  obtain ⟨h1, h2⟩ := split_first h (ident_chars hx).2 (ident_chars hy).2
  exact ⟨String.toList_inj.1 h1, h2⟩

theorem reprs_inj {l l' : List Name} (hl : ∀ x ∈ l, isIdent x = true) (hl' : ∀ x ∈ l', isIdent x = true)
    (h : joinChars [',', ' '] (l.map reprName) = joinChars [',', ' '] (l'.map reprName)) : l = l' := by
  have hne : ∀ (x : Name) l, joinChars [',', ' '] ((x :: l).map reprName) ≠ [] := by
    intro x l
    cases l <;> simp [joinChars, reprName]
  induction l generalizing l' with
  | nil =>
    cases l' with
    | nil => rfl
    | cons y l' => exact absurd h.symm (hne y l')
  | cons x l ih =>
    cases l' with
    | nil => exact absurd h (hne x l)
    | cons y l' =>
      have jc : ∀ (x : Name) (l : List Name), ∃ r, joinChars [',', ' '] ((x :: l).map reprName) = reprName x ++ r ∧
          (l = [] → r = []) ∧ (l ≠ [] → r = ',' :: ' ' :: joinChars [',', ' '] (l.map reprName)) := by
        intro x l
        cases l with
        | nil => exact ⟨[], by simp [joinChars]⟩
        | cons y l => exact ⟨',' :: ' ' :: joinChars [',', ' '] ((y :: l).map reprName), by simp [joinChars]⟩
      obtain ⟨r, e1, h1, h2⟩ := jc x l
      obtain ⟨r', e2, h1', h2'⟩ := jc y l'
      rw [e1, e2] at h
      obtain ⟨rfl, rfl⟩ := repr_inj (hl x (by simp)) (hl' y (by simp)) h
      by_cases hn : l = []
      · by_cases hn' : l' = []
        · rw [hn, hn']
        · have := h2' hn'; rw [h1 hn] at this; cases this
      · by_cases hn' : l' = []
        · have := h2 hn; rw [h1' hn'] at this; cases this
        · have e := h2 hn
          rw [h2' hn'] at e
          simp only [List.cons.injEq, true_and] at e
          rw [ih (fun x hx => hl x (by simp [hx])) (fun x hx => hl' x (by simp [hx])) e.symm]

theorem mem_insertName (x y : Name) (l : List Name) : x ∈ insertName y l ↔ x = y ∨ x ∈ l := by
  induction l with
  | nil => simp [insertName]
  | cons z l ih =>
    rw [insertName]
    split
    · simp
    · simp only [List.mem_cons, ih]; tauto

theorem mem_sortNames (x : Name) (l : List Name) : x ∈ sortNames l ↔ x ∈ l := by
  induction l with
  | nil => simp [sortNames]
  | cons z l ih => rw [sortNames, mem_insertName, ih]; simp

/-! ### constraints -/

theorem bracketed_names {e : Expr} (h : e.bracketed = true) : ∀ x ∈ e.allNames, x ∈ e.vars := by
  induction e using Expr.induct with
  | hc v => simp [Expr.allNames]
  | hv x => simp [Expr.allNames, Expr.vars]
  | hp i n => cases h
  | hu o e ih => intro x hx; simpa using ih h x hx
  | hb o l r ihl ihr =>
    simp only [Expr.bracketed, Bool.and_eq_true] at h
    intro x hx
    simp only [Expr.allNames, List.mem_append] at hx
    simp only [mem_vars_bin]
    exact hx.imp (ihl h.1 x) (ihr h.2 x)
  | ha k c es ih =>
    simp only [Expr.bracketed, Bool.and_eq_true, bracketedAll_iff] at h
    intro x hx
    rw [mem_vars_acc]
    have key : ∀ es : List Expr, x ∈ Expr.allNamesList es → ∃ e ∈ es, x ∈ e.allNames := by
      intro es
      induction es with
      | nil => intro h; cases h
      | cons e es ih =>
        intro h
        rw [Expr.allNamesList, List.mem_append] at h
        rcases h with h | h
        · exact ⟨e, by simp, h⟩
        · obtain ⟨e', he', h⟩ := ih h; exact ⟨e', by simp [he'], h⟩
    obtain ⟨e, he, hx⟩ := key es hx
    exact ⟨e, he, ih e he (h.2 e he) x hx⟩

/-- What the listing needs to know of a constraint. -/
structure PlainKind (k : CKind) : Prop where
  expr : ∀ e, k = .expr e → e.bracketed = true
  names : ∀ x ∈ k.vars, PlainName x

/-- The meaning of a kind of constraint. -/
def SameMeaning (k k' : CKind) : Prop := ∀ i i' ρ ρ' σ, Meaning ρ ⟨i, k⟩ σ ↔ Meaning ρ' ⟨i', k'⟩ σ

theorem SameMeaning.symm {k k' : CKind} (h : SameMeaning k k') : SameMeaning k' k := fun i i' ρ ρ' σ => (h i' i ρ' ρ σ).symm

theorem plain_reads {e : Expr} (h : PlainKind (.expr e)) : Reads e.strText e.strToks :=
  reads_str e fun x hx => (h.names x (bracketed_names (h.expr e rfl) x hx)).1

theorem const_ne_expr {b : Bool} {e : Expr} (h : PlainKind (.expr e)) (ht : (CKind.const b).text = e.strText) : False := by
  have h1 := (plain_reads h).toks (raw_str e)
  rw [← ht] at h1
  have h2 : lexGo ((CKind.const b).text ++ [']']) .start = some [.name (if b then "True" else "False"), .rbrk] := by cases b <;> rfl
  rw [h2] at h1
  injection h1 with h1
  obtain ⟨N, hN⟩ := rds_str e (h.expr e rfl)
  have e1 := hN (N + 1) (by omega) [.rbrk] (by simp)
  rw [← h1] at e1
  simp only [rdE, Option.some.injEq, Prod.mk.injEq, and_true] at e1
  have := h.names _ (norm_vars e _ e1.symm (h.expr e rfl))
  cases b
  · exact this.2.2 rfl
  · exact this.2.1 rfl

theorem allDiff_ne_expr {l : List Name} {e : Expr} (h : PlainKind (.expr e)) (ht : (CKind.allDiff l).text = e.strText) : False := by
  have h1 := (plain_reads h).toks (raw_str e)
  rw [← ht] at h1
  cases hl : sortNames (dedup l) with
  | nil =>
    simp only [CKind.text, hl] at h1
    have h2 : lexGo (allDiffHead ++ joinChars [',', ' '] (List.map reprName []) ++ [']', ')'] ++ [']']) .start =
        some [.name "AllDifferentConstraint", .lpar, .lbrk, .rbrk, .rpar, .rbrk] := by decide +kernel
    rw [h2] at h1
    injection h1 with h1
    obtain ⟨N, hN⟩ := rds_str e (h.expr e rfl)
    have e1 := hN (N + 3) (by omega) [.rbrk] (by simp)
    rw [← h1] at e1
    simp [rdE, rdL] at e1
  | cons x xs =>
    have := (lex_chars h1).2
    apply this
    simp only [CKind.text, hl, List.mem_append]
    refine .inl (.inl (.inr ?_))
    cases xs <;> simp [joinChars, reprName]

theorem const_ne_allDiff {l : List Name} {b : Bool} (ht : (CKind.const b).text = (CKind.allDiff l).text) : False := by
  have hA : allDiffHead.head? = some 'A' := by decide +kernel
  have h1 : (CKind.allDiff l).text.head? = some 'A' := by simp [CKind.text, hA]
  rw [← ht] at h1
  cases b <;> exact absurd h1 (by decide)

theorem text_meaning {k k' : CKind} (h : PlainKind k) (h' : PlainKind k') (ht : k.text = k'.text) : SameMeaning k k' := by
  match k, k' with
  | .const b, .const b' =>
    have : b = b' := by cases b <;> cases b' <;> first | rfl | (exact absurd ht (by decide))
    subst this; exact fun _ _ _ _ _ => Iff.rfl
  | .const b, .expr e => exact (const_ne_expr h' ht).elim
  | .expr e, .const b => exact (const_ne_expr h ht.symm).elim
  | .allDiff l, .expr e => exact (allDiff_ne_expr h' ht).elim
  | .expr e, .allDiff l => exact (allDiff_ne_expr h ht.symm).elim
  | .const b, .allDiff l => exact (const_ne_allDiff ht).elim
  | .allDiff l, .const b => exact (const_ne_allDiff ht.symm).elim
  | .expr e, .expr e' =>
    have := str_inj (fun x hx => (h.names x (bracketed_names (h.expr e rfl) x hx)).1)
      (fun x hx => (h'.names x (bracketed_names (h'.expr e' rfl) x hx)).1) (h.expr e rfl) (h'.expr e' rfl) ht
    intro i i' ρ ρ' σ
    simp only [Meaning]
    rw [← eval_norm ρ ρ σ e (h.expr e rfl), ← eval_norm ρ' ρ σ e' (h'.expr e' rfl), this]
  | .allDiff l, .allDiff l' =>
    simp only [CKind.text, List.append_assoc] at ht
    have := reprs_inj (l := sortNames (dedup l)) (l' := sortNames (dedup l'))
      (fun x hx => (h.names x (by rw [mem_sortNames] at hx; exact hx)).1)
      (fun x hx => (h'.names x (by rw [mem_sortNames] at hx; exact hx)).1) (List.append_cancel_right (List.append_cancel_left ht))
    have hm : ∀ x, x ∈ l ↔ x ∈ l' := by
      intro x
      rw [← mem_dedup l, ← mem_dedup l', ← mem_sortNames, this, mem_sortNames]
    intro i i' ρ ρ' σ
    simp only [Meaning, hm]

theorem kind_chars {k : CKind} (h : PlainKind k) : '\n' ∉ k.text := by
  match k with
  | .const b => cases b <;> decide
  | .expr e => exact (str_chars fun x hx => (h.names x (bracketed_names (h.expr e rfl) x hx)).1).1
  | .allDiff l =>
    simp only [CKind.text, List.mem_append, not_or]
    refine ⟨⟨by decide +kernel, ?_⟩, by decide⟩
    have hl : ∀ x ∈ sortNames (dedup l), isIdent x = true := fun x hx => (h.names x (by rw [mem_sortNames] at hx; exact hx)).1
    generalize sortNames (dedup l) = l' at hl
    have hr : ∀ x, isIdent x = true → '\n' ∉ reprName x := by
      intro x hx
      rw [repr_plain hx]
      simp [(ident_chars hx).1]
    induction l' with
    | nil => simp [joinChars]
    | cons x l' ih =>
      cases l' with
      | nil => simpa [joinChars] using hr x (hl x (by simp))
      | cons y l' =>
        simp only [List.map_cons, joinChars, List.mem_append, not_or]
        exact ⟨⟨hr x (hl x (by simp)), by decide⟩, ih (fun z hz => hl z (by simp [List.mem_cons] at hz ⊢; tauto))⟩

/-! ### lines -/

theorem lines_inj {L L' : List (List Char)} (h : L.flatMap (· ++ ['\n']) = L'.flatMap (· ++ ['\n'])) (hL : ∀ l ∈ L, '\n' ∉ l)
    (hL' : ∀ l ∈ L', '\n' ∉ l) : L = L' := by
  induction L generalizing L' with
  | nil => cases L' with
    | nil => rfl
    | cons l L' => simp at h
  | cons l L ih =>
    cases L' with
    | nil => simp at h
    | cons l' L' =>
      simp only [List.flatMap_cons, List.append_assoc, List.cons_append, List.nil_append] at h
      obtain ⟨rfl, h2⟩ := split_first h (hL l (by simp)) (hL' l' (by simp))
      rw [ih h2 (fun l hl => hL l (by simp [hl])) (fun l hl => hL' l (by simp [hl]))]

theorem split_empty {A A' B B' : List (List Char)} (h : A ++ [] :: B = A' ++ [] :: B') (hA : [] ∉ A) (hA' : [] ∉ A') : A = A' ∧ B = B' := by
  induction A generalizing A' with
  | nil =>
    cases A' with
    | nil => simpa using h
    | cons c A' => simp at h; exact absurd (by simp [h.1]) hA'
  | cons c A ih =>
    cases A' with
    | nil => simp at h; exact absurd (by simp [h.1]) hA
    | cons c' A' =>
      simp only [List.cons_append, List.cons.injEq, List.mem_cons, not_or] at h hA hA'
      obtain ⟨rfl, rfl⟩ := ih h.2 hA.2 hA'.2
      exact ⟨by rw [h.1], rfl⟩

theorem index_chars (n : Nat) : '\n' ∉ index4 n := by
  have := (lex_chars ((Reads.nat n).toks (by simp [rawTok]))).1
  simp only [List.mem_append, not_or] at this
  simp [index4, this.1]

end Satisfy
