import Verif.Knapsack
import Verif.Lemmas.BuiltOpt
/-! Lemmas on the knapsack model. -/

namespace Satisfy
open Props

def kname (i : Nat) : Name := "i_" ++ toString i

theorem kname_inj {i j : Nat} (h : kname i = kname j) : i = j := name1_inj h

theorem kname_ok (i : Nat) : checkName (kname i) = true ∧ NameOk (kname i) :=
  name1_ok (p := "i_") (c := 'i') (cs := ['_']) rfl (by decide) (by decide) (by decide) i

/-- `n` bool variables. -/
def kvars (n : Nat) : Dict (List Int) := tabVars (List.range n) kname (fun _ => [0, 1])

theorem kvars_keys (n : Nat) : (kvars n).keys = (List.range n).map kname := tabVars_keys

theorem kvars_nodup (n : Nat) : ((List.range n).map kname).Nodup :=
  List.Nodup.map (fun _ _ h => kname_inj h) List.nodup_range

/-- The sum of the products. -/
def ksum (n : Nat) (c : List Int) (s : Name → Int) : Int := (((List.range n).zip c).map (fun p => s (kname p.1) * p.2)).sum

def kcol (rows : List (List Int)) (j : Nat) : List Int := rows.map (fun r => r.getD j 0)

theorem zip_vars {α : Type} (n : Nat) (l : List α) :
    ((List.range n).map (fun i => Expr.var (kname i))).zip l = ((List.range n).zip l).map (fun p => (Expr.var (kname p.1), p.2)) := by
  rw [List.zip_map_left]; rfl

theorem mem_zip_range {α : Type} {n : Nat} {l : List α} {p : Nat × α} (h : p ∈ (List.range n).zip l) :
    p.1 < n ∧ p.2 ∈ l ∧ l[p.1]? = some p.2 := by
  obtain ⟨i, hi, he⟩ := List.getElem_of_mem h
  simp at hi
  subst he
  simp [hi]

theorem Den.const {xs : List Name} (n : Int) : Den xs (.expr (.const n)) (fun _ => n) :=
  ⟨by simp [objVars, coerce, Expr.vars], .const n, fun _ _ _ => by simp [Obj.eval, Expr.eval], by simp [objParams, coerce, Expr.params]⟩

theorem Den.coerce {xs : List Name} {o : Obj} {f : (Name → Int) → Int} (h : Den xs o f) : Den xs (.expr (coerce o)) f := by
  cases o with
  | int n => exact ⟨h.vars, h.nice, h.eval, h.params⟩
  | expr e => exact h

theorem sum_set_zero (n i : Nat) (h : i < n) (v : Int) : ((List.replicate n (0 : Int)).set i v).sum = v := by
  induction n generalizing i with
  | zero => omega
  | succ n ih =>
    cases i with
    | zero => simp [List.replicate_succ]
    | succ i => simp [List.replicate_succ, ih i (by omega)]

theorem mul_zero_obj (x : Name) : (Obj.expr (.var x)).mul (.int 0) = .expr (.const 0) := by
  simp [Obj.mul, Expr.pyMul, makeProd, makeAcc, expandOperand, accLoop, coerce, AccKind.neutral, AccKind.op, AccKind.absorbing]

/-- The indices whose coefficient is not zero. -/
def knz (n : Nat) (c : List Int) : List Nat := (List.range n).filter (fun i => c.getD i 0 ≠ 0)

theorem ksum_den (n : Nat) (c : List Int) :
    Den ((knz n c).map kname) (Obj.pySum ((((List.range n).map (fun i => Expr.var (kname i))).zip c).map
      (fun p => (Obj.expr p.1).mul (.int p.2)))) (ksum n c) := by
  rw [zip_vars, List.map_map]
  refine Den.sum (fun p hp => ?_)
  obtain ⟨h1, _, h3⟩ := mem_zip_range hp
  simp only [Function.comp]
  by_cases h0 : p.2 = 0
  · rw [h0, mul_zero_obj]
    exact (Den.const 0).congr (fun s => by simp)
  · refine (Den.var (x := kname p.1) ?_).mul (Den.int p.2)
    refine List.mem_map_of_mem (List.mem_filter.2 ⟨List.mem_range.2 h1, ?_⟩)
    simp [List.getD, h3, h0]

theorem kload {rows : List (List Int)} {m : Nat} (hr : ∀ r ∈ rows, r.length = m) (n : Nat) {j : Nat} (hj : j < m) :
    knapLoad ((List.range n).map (fun i => Expr.var (kname i))) rows j =
      .ok (Obj.pySum ((((List.range n).map (fun i => Expr.var (kname i))).zip (kcol rows j)).map (fun p => (Obj.expr p.1).mul (.int p.2)))) := by
  unfold knapLoad
  rw [Res.each_ok (g := fun p => (Obj.expr p.1).mul (.int (p.2.getD j 0)))]
  · simp only [ok_bind, pure_res, kcol, List.zip_map_right, List.map_map, Function.comp_def, Prod.map]
    rfl
  · rintro ⟨e, row⟩ hp
    have : row.length = m := hr row (List.of_mem_zip hp).2
    rw [listAt_nat (by show j < row.length; omega)]
    simp [List.getD, this, hj]

theorem knapRows_ok {n m : Nat} (rows : List (List Int)) (hr : ∀ r ∈ rows, r.length = m) : ∀ k, k + rows.length ≤ n →
    knapRows n m k (rows.map (fun r => r.map some)) = .ok rows := by
  induction rows with
  | nil => intro k _; rfl
  | cons row rows ih =>
    intro k hk
    simp only [List.length_cons] at hk
    have h1 : Res.each asInt (row.map some) = .ok row := by
      have : Res.each asInt (row.map some) = .ok ((row.map some).map (fun o => o.getD 0)) :=
        Res.each_ok (by intro o ho; obtain ⟨v, _, rfl⟩ := List.mem_map.1 ho; rfl)
      rw [this]; simp
    simp only [List.map_cons, knapRows, h1, ok_bind, ih (fun r h => hr r (by simp [h])) (k + 1) (by omega)]
    rw [if_neg (by omega), if_neg (by simp [hr row (by simp)])]
    rfl

theorem asInts (l : List Int) : Res.each asInt (l.map some) = .ok l := by
  have : Res.each asInt (l.map some) = .ok ((l.map some).map (fun o => o.getD 0)) :=
    Res.each_ok (by intro o ho; obtain ⟨v, _, rfl⟩ := List.mem_map.1 ho; rfl)
  rw [this]; simp

theorem knapRows_length {n m : Nat} {rows : List (List (Option Int))} : ∀ {k : Nat} {rs : List (List Int)}, knapRows n m k rows = .ok rs →
    rs.length = rows.length := by
  induction rows with
  | nil => intro k rs h; cases h; rfl
  | cons row rows ih =>
    intro k rs h
    simp only [knapRows] at h
    split at h
    · cases h
    · split at h
      · cases h
      · simp only [bind_eq_ok, pure_res, Except.ok.injEq] at h
        obtain ⟨r, _, rs', h2, rfl⟩ := h
        simp [ih h2]

/-- The optimizer as it is built. -/
def knapOf (values caps : List Int) (ws : List (List Int)) : Knapsack :=
  ⟨values, caps, ws, (List.range values.length).map (fun i => Expr.var (kname i))⟩

theorem knap_built (h : Heap) {values caps : List Int} {rows : List (List Int)} (hne : values ≠ []) (hlen : rows.length = values.length)
    (hrow : ∀ r ∈ rows, r.length = caps.length) (it : Iter (List (Option Int))) (hit : it.first = rows.map (fun r => r.map some)) :
    ∃ w, knapBuild (values.map some) (caps.map some) it ⟨.empty, h⟩ = (w, .ok (some (knapOf values caps (it.again rows)))) ∧
      Built h.params w (kvars values.length)
        (fun σ => ∀ p ∈ caps.zipIdx, ksum values.length (kcol (it.again rows) p.2) (val σ) ≤ p.1) := by
  have hws : ∀ r ∈ it.again rows, r.length = caps.length := by
    cases it with
    | seq l => exact hrow
    | once l => intro r hr; simp [Iter.again] at hr
  obtain ⟨w1, h1, b1⟩ := (BuiltC.empty h).addTabs (is := []) (nm := kname) (dom := fun _ => [0, 1]) (List.range values.length)
    (fun _ _ => by decide) (fun i _ => (kname_ok i).1) (by simpa using kvars_nodup values.length)
  have hloop := Api.each_spec (f := fun p : Int × Nat => do
        let o ← Api.lift (knapLoad ((List.range values.length).map (fun i => Expr.var (kname i))) (it.again rows) p.2)
        addConstraint (cmpArg .le o (.int p.1)))
      (I := fun pre w => Built h.params w (kvars values.length)
        (fun σ => ∀ p ∈ pre, ksum values.length (kcol (it.again rows) p.2) (val σ) ≤ p.1)) (g := fun _ => ()) caps.zipIdx
      (by
        intro pre p post w he hw
        have hp : p ∈ caps.zipIdx := by rw [he]; simp
        have hj : p.2 < caps.length := by
          have := List.snd_lt_add_of_mem_zipIdx hp; omega
        have hsub : ∀ x ∈ (knz values.length (kcol (it.again rows) p.2)).map kname, x ∈ (kvars values.length).keys := by
          intro x hx
          obtain ⟨i, hi, rfl⟩ := List.mem_map.1 hx
          rw [kvars_keys]
          exact List.mem_map_of_mem (List.mem_filter.1 hi).1
        obtain ⟨w', h2, b2⟩ := hw.addCmp .le (ksum_den values.length (kcol (it.again rows) p.2)) (Den.int p.1) hsub
          (fun x hx => by obtain ⟨i, _, rfl⟩ := List.mem_map.1 hx; exact (kname_ok i).2) (.right (by simp))
        refine ⟨w', ?_, b2.congr (fun σ _ => ?_)⟩
        · simp only [Api.bind_apply, Api.lift, kload hws values.length hj, h2]
        · simp only [Cmp.holds, decide_eq_true_eq, List.mem_append, List.mem_singleton]
          constructor
          · rintro ⟨h3, h4⟩ q (hq | rfl)
            · exact h3 q hq
            · exact h4
          · intro h3
            exact ⟨fun q hq => h3 q (.inl hq), h3 p (.inr rfl)⟩)
      w1 (by
        have : Built h.params w1 (kvars values.length) (fun _ => True) := by simpa [kvars] using b1
        exact this.congr (fun σ _ => by simp))
  obtain ⟨w2, h2, b2⟩ := hloop
  refine ⟨w2, ?_, b2⟩
  have he : (values.map some).isEmpty = false := by cases values with | nil => exact absurd rfl hne | cons v vs => rfl
  unfold knapBuild
  rw [he]
  have hk : knapRows values.length caps.length 0 (rows.map (fun r => r.map some)) = .ok rows := knapRows_ok rows hrow 0 (by omega)
  simp only [Bool.false_eq_true, if_false, Api.bind_apply, Api.lift, asInts, hit, hk, hlen, Nat.lt_irrefl]
  rw [show (fun i : Nat => addBoolVariable (some ("i_" ++ toString i))) = (fun i => addIntVariable [0, 1] (some (kname i))) from rfl, h1]
  simp only
  rw [h2]
  rfl

/-- Only lists of ints pass. -/
theorem asInts_inv : ∀ {l : List (Option Int)} {vs : List Int}, Res.each asInt l = .ok vs → l = vs.map some := by
  intro l
  induction l with
  | nil => intro vs h; cases h; rfl
  | cons o l ih =>
    intro vs h
    cases o with
    | none => simp [Res.each, asInt] at h
    | some v =>
      simp only [Res.each, asInt, ok_bind, bind_eq_ok, pure_res, Except.ok.injEq] at h
      obtain ⟨vs', h1, rfl⟩ := h
      rw [ih h1]; rfl

theorem knapRows_inv {n m : Nat} : ∀ {rows : List (List (Option Int))} {k : Nat} {rs : List (List Int)}, knapRows n m k rows = .ok rs →
    rows = rs.map (fun r => r.map some) ∧ (∀ r ∈ rs, r.length = m) ∧ (rs ≠ [] → k + rs.length ≤ n) := by
  intro rows
  induction rows with
  | nil => intro k rs h; cases h; simp
  | cons row rows ih =>
    intro k rs h
    simp only [knapRows] at h
    split at h
    · cases h
    · split at h
      · cases h
      · rename_i h1 h2
        simp only [bind_eq_ok, pure_res, Except.ok.injEq] at h
        obtain ⟨r, h3, rs', h4, rfl⟩ := h
        obtain ⟨i1, i2, i3⟩ := ih h4
        have hr := asInts_inv h3
        refine ⟨by rw [i1, hr]; rfl, ?_, fun _ => ?_⟩
        · intro q hq
          rcases List.mem_cons.1 hq with rfl | hq
          · rw [hr] at h2; simpa using h2
          · exact i2 q hq
        · by_cases hn : rs' = []
          · subst hn; simp; omega
          · have := i3 hn; simp; omega

theorem knapBuild_inv {values capacities : List (Option Int)} {it : Iter (List (Option Int))} (hne : values ≠ []) {w w' : World} {k : Option Knapsack}
    (h : knapBuild values capacities it w = (w', .ok k)) :
    ∃ (vs cs : List Int) (rows : List (List Int)), values = vs.map some ∧ capacities = cs.map some ∧ it.first = rows.map (fun r => r.map some) ∧
      rows.length = vs.length ∧ ∀ r ∈ rows, r.length = cs.length := by
  have he : values.isEmpty = false := by cases values with | nil => exact absurd rfl hne | cons v vs => rfl
  unfold knapBuild at h
  rw [he] at h
  simp only [Bool.false_eq_true, if_false, Api.bind_apply, Api.lift] at h
  cases h1 : Res.each asInt values with
  | error e => rw [h1] at h; simp at h
  | ok vs =>
    rw [h1] at h
    cases h2 : Res.each asInt capacities with
    | error e => rw [h2] at h; simp at h
    | ok cs =>
      rw [h2] at h
      cases h3 : knapRows vs.length cs.length 0 it.first with
      | error e => simp only [h3] at h; simp at h
      | ok rows =>
        simp only [h3] at h
        by_cases hl : rows.length < vs.length
        · rw [if_pos hl] at h; simp [Api.raise] at h
        · obtain ⟨i1, i2, i3⟩ := knapRows_inv h3
          refine ⟨vs, cs, rows, asInts_inv h1, asInts_inv h2, i1, ?_, i2⟩
          by_cases hn : rows = []
          · subst hn; simp only [List.length_nil] at hl ⊢; omega
          · have := i3 hn; omega

end Satisfy
