import Verif.Lemmas.Knapsack
import Verif.Props.Best
import Mathlib.Algebra.Order.BigOperators.Group.List
import Mathlib.Tactic.ByContra
/-!
# Knapsack: C32, C33, C34
-/

namespace Satisfy.Props
open Satisfy

/-- Specification: the scalar product. -/
def dot : List Int → List Int → Int
  | a :: as, b :: bs => a * b + dot as bs
  | _, _ => 0

/-- Specification: one row of weights per value, one weight per capacity. -/
structure WellFormed (values caps : List Int) (rows : List (List Int)) : Prop where
  items : rows.length = values.length
  cols : ∀ row ∈ rows, row.length = caps.length

/-- The weights of all items for capacity `j`. -/
def column (rows : List (List Int)) (j : Nat) : List Int := rows.map (fun r => r.getD j 0)

/-- Specification: a feasible selection. -/
structure Selection (values caps : List Int) (rows : List (List Int)) (x : List Int) : Prop where
  length : x.length = values.length
  bits : ∀ b ∈ x, b = 0 ∨ b = 1
  fits : ∀ j c, caps[j]? = some c → dot x (column rows j) ≤ c

theorem dot_zip (x c : List Int) : dot x c = ((x.zip c).map (fun p => p.1 * p.2)).sum := by
  induction x generalizing c with
  | nil => simp [dot]
  | cons a x ih => cases c with
    | nil => simp [dot]
    | cons b c => simp [dot, ih]

theorem dot_ksum (n : Nat) (c : List Int) (s : Name → Int) : dot ((List.range n).map (fun i => s (kname i))) c = ksum n c s := by
  rw [dot_zip, List.zip_map_left, List.map_map]; rfl

/-! ## Selections and solutions of the model -/

def kbits (n : Nat) (τ : Subst) : List Int := (List.range n).map (fun i => val τ (kname i))

section
variable {values caps : List Int} {rows : List (List Int)}

theorem sel_of_exact {τ : Subst} (hτ : Exact (kvars values.length) τ)
    (hC : ∀ p ∈ caps.zipIdx, ksum values.length (kcol rows p.2) (val τ) ≤ p.1) :
    Selection values caps rows (kbits values.length τ) := by
  refine ⟨by simp [kbits], fun b hb => ?_, fun j c hc => ?_⟩
  · obtain ⟨i, hi, rfl⟩ := List.mem_map.1 hb
    obtain ⟨v, hv, hg⟩ := hτ.val hi
    rw [val_eq hg]; simpa using hv
  · have := hC (c, j) (List.mem_zipIdx_iff_getElem?.2 hc)
    rw [kbits, dot_ksum]; exact this

theorem exact_of_sel {x : List Int} (hx : Selection values caps rows x) :
    ∃ τ, Exact (kvars values.length) τ ∧ (∀ p ∈ caps.zipIdx, ksum values.length (kcol rows p.2) (val τ) ≤ p.1) ∧ kbits values.length τ = x := by
  have hb : kbits values.length (tab (List.range values.length) kname (fun i => x.getD i 0)) = x := by
    apply List.ext_getElem
    · simp [kbits, hx.length]
    · intro i h1 h2
      have hi : i < values.length := by simpa [kbits] using h1
      simp only [kbits, List.getElem_map, List.getElem_range]
      rw [val_eq (tab_get (kvars_nodup _) (List.mem_range.2 hi))]
      simp [List.getD, h2]
  refine ⟨_, tab_exact (kvars_nodup _) (fun i hi => ?_), fun p hp => ?_, hb⟩
  · have hi : i < x.length := by rw [hx.length]; simpa using hi
    have := hx.bits x[i] (List.getElem_mem _)
    simpa [List.getD, hi] using this
  · have := hx.fits p.2 p.1 (List.mem_zipIdx_iff_getElem?.1 hp)
    rw [← hb, kbits, dot_ksum] at this; exact this

/-! ## The objective -/

theorem kgoal (values caps : List Int) (ws : List (List Int)) :
    Goal (kvars values.length) (knapOf values caps ws).objective (ksum values.length values) := by
  have h := ksum_den values.length values
  have hx : ∀ x ∈ (knz values.length values).map kname, x ∈ (kvars values.length).keys ∧ NameOk x := by
    intro x hx
    obtain ⟨i, hi, rfl⟩ := List.mem_map.1 hx
    exact ⟨by rw [kvars_keys]; exact List.mem_map_of_mem (List.mem_filter.1 hi).1, (kname_ok i).2⟩
  refine ⟨_, h.coerce, fun x h => (hx x h).1, fun x h => (hx x h).2⟩

theorem kobj_vars (values caps : List Int) (ws : List (List Int)) :
    ((knapOf values caps ws).objective.expr.vars).Perm ((knz values.length values).map kname) := by
  have hnd : ((knz values.length values).map kname).Nodup := (List.nodup_range.filter _).map (fun _ _ h => kname_inj h)
  refine (List.perm_ext_iff_of_nodup (nodup_vars _) hnd).2 (fun x => ⟨fun hx => (ksum_den values.length values).vars x hx, fun hx => ?_⟩)
  obtain ⟨i, hi, rfl⟩ := List.mem_map.1 hx
  obtain ⟨hi, hv⟩ := List.mem_filter.1 hi
  by_contra hc
  have hg := kgoal values caps ws
  have e0 : Exact (kvars values.length) (tab (List.range values.length) kname (fun _ => 0)) :=
    tab_exact (kvars_nodup _) (fun _ _ => by simp)
  have e1 : Exact (kvars values.length) (tab (List.range values.length) kname (fun k => if k = i then 1 else 0)) :=
    tab_exact (kvars_nodup _) (fun k _ => by by_cases h : k = i <;> simp [h])
  have h0 := hg.evalExact (fun _ => 0) e0
  have h1 := hg.evalExact (fun _ => 0) e1
  have : (knapOf values caps ws).objective.expr.eval (fun _ => 0) (tab (List.range values.length) kname (fun _ => 0)) =
      (knapOf values caps ws).objective.expr.eval (fun _ => 0) (tab (List.range values.length) kname (fun k => if k = i then 1 else 0)) := by
    apply eval_congr
    intro y hy
    obtain ⟨k, hk, rfl⟩ := List.mem_map.1 ((ksum_den values.length values).vars y hy)
    have hk := (List.mem_filter.1 hk).1
    have hne : k ≠ i := by rintro rfl; exact hc hy
    have t0 : Dict.get? (tab (List.range values.length) kname (fun _ => (0 : Int))) (kname k) = some 0 := tab_get (kvars_nodup _) hk
    have t1 : Dict.get? (tab (List.range values.length) kname (fun k => if k = i then (1 : Int) else 0)) (kname k) = some (if k = i then 1 else 0) :=
      tab_get (kvars_nodup _) hk
    rw [t0, t1, if_neg hne]
  rw [h0, h1] at this
  have this := Except.ok.inj this
  have hs0 : ksum values.length values (val (tab (List.range values.length) kname (fun _ => 0))) = 0 := by
    unfold ksum
    apply List.sum_eq_zero
    intro v hv'
    obtain ⟨p, hp, rfl⟩ := List.mem_map.1 hv'
    rw [val_eq (tab_get (kvars_nodup _) (List.mem_range.2 (mem_zip_range hp).1))]; simp
  have hs1 : ksum values.length values (val (tab (List.range values.length) kname (fun k => if k = i then 1 else 0))) = values.getD i 0 := by
    have hil : i < values.length := by simpa using hi
    unfold ksum
    have : ((List.range values.length).zip values).map (fun p => val (tab (List.range values.length) kname (fun k => if k = i then 1 else 0)) (kname p.1) * p.2)
        = (List.replicate values.length (0 : Int)).set i (values.getD i 0) := by
      apply List.ext_getElem
      · simp
      · intro k h1 h2
        have hk : k < values.length := by simpa using h1
        simp only [List.getElem_map, List.getElem_zip, List.getElem_range, List.getElem_set]
        rw [val_eq (tab_get (kvars_nodup _) (List.mem_range.2 hk))]
        by_cases hki : k = i
        · subst hki; simp [List.getD, hk]
        · have : ¬ i = k := fun h => hki h.symm
          simp [hki, this]
    rw [this]
    exact sum_set_zero values.length i hil _
  rw [hs0, hs1] at this
  exact absurd this.symm (by simpa using hv)

theorem knz_length (values : List Int) : (knz values.length values).length = (values.filter (· ≠ 0)).length := by
  have : values = (List.range values.length).map (fun i => values.getD i 0) := by
    apply List.ext_getElem
    · simp
    · intro i h1 h2; simp [List.getD, h1]
  conv_rhs => rw [this, List.filter_map, List.length_map]
  simp [knz, Function.comp_def]

theorem kdecode (ws : List (List Int)) (hws : ∀ r ∈ ws, r.length = caps.length) {τ : Subst} (hτ : Exact (kvars values.length) τ) (b : Bool) :
    (knapOf values caps ws).decode b τ = .ok ⟨b, some (kbits values.length τ), some (dot (kbits values.length τ) values),
      some ((List.range caps.length).map (fun j => dot (kbits values.length τ) (column ws j)))⟩ := by
  have h1 : Res.each (fun x : Expr => τ.at x.name) ((List.range values.length).map (fun i => Expr.var (kname i))) = .ok (kbits values.length τ) := by
    rw [Res.each_ok (g := fun x : Expr => val τ x.name)]
    · simp [kbits, List.map_map, Function.comp_def, Expr.name]
    · intro x hx
      obtain ⟨i, hi, rfl⟩ := List.mem_map.1 hx
      obtain ⟨v, _, hg⟩ := hτ.val hi
      rw [show (Expr.var (kname i)).name = kname i from rfl, Subst.at_ok hg, val_eq hg]
  have h2 : ∀ j ∈ List.range caps.length, (do
      let l ← Res.each (fun p : Int × List Int => do return p.1 * (← listAt p.2 j)) ((kbits values.length τ).zip ws)
      return l.sum : Res Int) = .ok (dot (kbits values.length τ) (column ws j)) := by
    intro j hj
    have hj : j < caps.length := by simpa using hj
    rw [Res.each_ok (g := fun p => p.1 * p.2.getD j 0)]
    · simp only [ok_bind, pure_res, dot_zip, column, List.zip_map_right, List.map_map, Function.comp_def, Prod.map]
      rfl
    · rintro ⟨v, row⟩ hp
      have hl : row.length = caps.length := hws row (List.of_mem_zip hp).2
      rw [listAt_nat (by show j < row.length; omega)]
      simp [List.getD, hl, hj]
  simp only [Knapsack.decode, knapOf, h1, ok_bind]
  rw [Res.each_ok h2]
  simp only [ok_bind, pure_res, dot_zip]

theorem knapCall_ok {a : SolveArgs} {k : Knapsack} {n : Nat} {w : World} {r : KnapSolution} (h : knapCall a (some k) n w = some (.ok r)) :
    ∃ s, optimalSolution (optimizeRun a [k.objective] n w) = some (.ok s) ∧
      ((s.solution = none ∧ r = ⟨s.isOptimal, none, none, none⟩) ∨ ∃ τ, s.solution = some τ ∧ k.decode s.isOptimal τ = .ok r) := by
  unfold knapCall at h
  simp only at h
  split at h
  · cases h
  · cases h
  · rename_i s hs
    refine ⟨s, hs, ?_⟩
    split at h
    · rename_i h0
      simp only [Option.some.injEq, Except.ok.injEq] at h
      exact .inl ⟨h0, h.symm⟩
    · rename_i τ h0
      simp only [Option.some.injEq] at h
      exact .inr ⟨τ, h0, h⟩

/-- The weights as a collection that can be iterated again. -/
def seqOf (rows : List (List Int)) : Iter (List (Option Int)) := .seq (rows.map (fun r => r.map some))

/-- The weights as a generator. -/
def onceOf (rows : List (List Int)) : Iter (List (Option Int)) := .once (rows.map (fun r => r.map some))

theorem kvars_ne (hne : values ≠ []) : kvars values.length ≠ [] := by
  intro h
  have := congrArg List.length h
  simp [kvars, tabVars] at this
  exact hne this

theorem seq_built (h : Heap) (hne : values ≠ []) (hwf : WellFormed values caps rows) :
    ∃ w, knapBuild (values.map some) (caps.map some) (seqOf rows) ⟨.empty, h⟩ = (w, .ok (some (knapOf values caps rows))) ∧
      Built h.params w (kvars values.length) (fun σ => ∀ p ∈ caps.zipIdx, ksum values.length (kcol rows p.2) (val σ) ≤ p.1) :=
  knap_built h hne hwf.items hwf.cols (seqOf rows) rfl

theorem once_built (h : Heap) (hne : values ≠ []) (hwf : WellFormed values caps rows) :
    ∃ w, knapBuild (values.map some) (caps.map some) (onceOf rows) ⟨.empty, h⟩ = (w, .ok (some (knapOf values caps []))) ∧
      Built h.params w (kvars values.length) (fun σ => ∀ p ∈ caps.zipIdx, ksum values.length (kcol [] p.2) (val σ) ≤ p.1) :=
  knap_built h hne hwf.items hwf.cols (onceOf rows) rfl

/-! ## C32 -/

/-- The optimizer as it is built, with whatever rows it gets to see when it is called. -/
abbrev KBuilt (h : Heap) (values caps : List Int) (ws : List (List Int)) (w : World) : Prop :=
  Built h.params w (kvars values.length) (fun σ => ∀ p ∈ caps.zipIdx, ksum values.length (kcol ws p.2) (val σ) ≤ p.1)

theorem feasible_of (h : Heap) {w : World} (hb : KBuilt h values caps rows w) (hcols : ∀ row ∈ rows, row.length = caps.length)
    {a : SolveArgs} (hs : ∀ l, (a.shuffle l).Perm l) (ha : a.adds = []) {n : Nat} {r : KnapSolution}
    (hr : knapCall a (some (knapOf values caps rows)) n w = some (.ok r)) :
    (∀ x, r.solution = some x → Selection values caps rows x ∧ r.value = some (dot x values) ∧
      r.weights = some ((List.range caps.length).map (fun j => dot x (column rows j)))) ∧
    (r.solution = none → r.value = none ∧ r.weights = none ∧ r.isOptimal = false) := by
  obtain ⟨s, hs1, hs2⟩ := knapCall_ok hr
  rcases hs2 with ⟨h0, rfl⟩ | ⟨τ, h0, hd⟩
  · refine ⟨fun x hx => by simp at hx, fun _ => ⟨rfl, rfl, ?_⟩⟩
    have := (C29_flag a _ w n s hs1).1
    simpa [h0] using this
  · have hmem := (C29_flag a _ w n s hs1).2 τ h0
    obtain ⟨hex, hC⟩ := hb.optSound hs ha (kgoal values caps rows).params n τ hmem
    rw [kdecode _ hcols hex] at hd
    cases hd
    refine ⟨fun x hx => ?_, fun h => by simp at h⟩
    cases hx
    exact ⟨sel_of_exact hex hC, rfl, rfl⟩

theorem none_of (h : Heap) (hne : values ≠ []) {w : World} (hb : KBuilt h values caps rows w) (hcols : ∀ row ∈ rows, row.length = caps.length)
    {a : SolveArgs} (hs : ∀ l, (a.shuffle l).Perm l) (ha : a.adds = []) {n : Nat} {r : KnapSolution}
    (hr : knapCall a (some (knapOf values caps rows)) n w = some (.ok r)) (hnone : r.solution = none)
    (hint : (optimizeRun a [(knapOf values caps rows).objective] n w).2.1.interrupt = none) : ¬ ∃ x, Selection values caps rows x := by
  rintro ⟨x, hx⟩
  obtain ⟨s, hs1, hs2⟩ := knapCall_ok hr
  rcases hs2 with ⟨h0, rfl⟩ | ⟨τ, h0, hd⟩
  · obtain ⟨τ, hex, hC, _⟩ := exact_of_sel hx
    exact hb.optNone hs ha (kgoal values caps rows) (kvars_ne hne) n s hs1 hint h0 τ hex hC
  · have hex := (hb.optSound hs ha (kgoal values caps rows).params n τ ((C29_flag a _ w n s hs1).2 τ h0)).1
    rw [kdecode _ hcols hex] at hd
    cases hd
    simp at hnone

/-- C32 for weights that can be iterated more than once: construction succeeds; whatever is returned is a feasible selection, with its value
and its weights. -/
theorem C32_partial (h : Heap) (hne : values ≠ []) (hwf : WellFormed values caps rows) :
    ∃ w k, knapBuild (values.map some) (caps.map some) (seqOf rows) ⟨.empty, h⟩ = (w, .ok (some k)) ∧
      ∀ a : SolveArgs, (∀ l, (a.shuffle l).Perm l) → a.adds = [] → ∀ n r, knapCall a (some k) n w = some (.ok r) →
        (∀ x, r.solution = some x → Selection values caps rows x ∧ r.value = some (dot x values) ∧
          r.weights = some ((List.range caps.length).map (fun j => dot x (column rows j)))) ∧
        (r.solution = none → r.value = none ∧ r.weights = none ∧ r.isOptimal = false) := by
  obtain ⟨w, hw, hb⟩ := seq_built h hne hwf
  exact ⟨w, _, hw, fun a hs ha n r hr => feasible_of h hb hwf.cols hs ha hr⟩

/-- The call returns: it does not raise and does not go on for ever. -/
theorem C32_returns (h : Heap) (hne : values ≠ []) (hwf : WellFormed values caps rows) :
    ∃ w k, knapBuild (values.map some) (caps.map some) (seqOf rows) ⟨.empty, h⟩ = (w, .ok (some k)) ∧
      ∀ a : SolveArgs, (∀ l, (a.shuffle l).Perm l) → a.adds = [] → ∃ r N, ∀ n ≥ N, knapCall a (some k) n w = some (.ok r) := by
  obtain ⟨w, hw, hb⟩ := seq_built h hne hwf
  refine ⟨w, _, hw, fun a hs ha => ?_⟩
  obtain ⟨s, N, hN⟩ := hb.optReturns hs ha (kgoal values caps rows)
  cases h0 : s.solution with
  | none => exact ⟨_, N, fun n hn => by simp only [knapCall]; rw [hN n hn]; simp only [h0]; rfl⟩
  | some τ =>
    have hex := (hb.optSound hs ha (kgoal values caps rows).params N τ ((C29_flag a _ w N s (hN N (Nat.le_refl N))).2 τ h0)).1
    obtain ⟨r, hd⟩ : ∃ r, (knapOf values caps rows).decode s.isOptimal τ = .ok r := ⟨_, kdecode rows hwf.cols hex s.isOptimal⟩
    refine ⟨r, N, fun n hn => ?_⟩
    simp only [knapCall]
    rw [hN n hn]
    simp only [h0]
    rw [hd]

/-- No solution is returned only if there is no feasible selection or the search was interrupted (limit, timeout). -/
theorem C32_none (h : Heap) (hne : values ≠ []) (hwf : WellFormed values caps rows) :
    ∃ w k, knapBuild (values.map some) (caps.map some) (seqOf rows) ⟨.empty, h⟩ = (w, .ok (some k)) ∧
      ∀ a : SolveArgs, (∀ l, (a.shuffle l).Perm l) → a.adds = [] → ∀ n r, knapCall a (some k) n w = some (.ok r) →
        r.solution = none → (optimizeRun a [k.objective] n w).2.1.interrupt = none → ¬ ∃ x, Selection values caps rows x := by
  obtain ⟨w, hw, hb⟩ := seq_built h hne hwf
  exact ⟨w, _, hw, fun a hs ha n r hr hnone hint => none_of h hne hb hwf.cols hs ha hr hnone hint⟩

/-! ## C33 -/

theorem ksum_mono (n : Nat) (c : List Int) (hc : ∀ v ∈ c, 0 ≤ v) {s s' : Name → Int} (h : ∀ x, s x ≤ s' x) : ksum n c s ≤ ksum n c s' := by
  unfold ksum
  apply List.sum_le_sum
  intro p hp
  exact Int.mul_le_mul_of_nonneg_right (h _) (hc _ (mem_zip_range hp).2.1)

theorem kimproving (hpos : ∀ v ∈ values, 0 ≤ v) {w : World} {ρ : Store} {C : Subst → Prop} (hb : Built ρ w (kvars values.length) C)
    (ws : List (List Int)) (x : Name) : (knapOf values caps ws).objective.Improving w.model w.heap.params x := by
  intro σ hσ d hd
  have hdom : d = [0, 1] := by
    rw [hb.domain] at hd
    obtain ⟨i, _, he⟩ := List.mem_map.1 (get?_mem hd)
    exact (congrArg Prod.snd he).symm
  subst hdom
  simp only [List.pairwise_cons, List.mem_singleton, List.not_mem_nil, false_implies, implies_true, List.Pairwise.nil, and_true, forall_eq]
  intro v v' hv hv'
  have hbd : ∀ u : Int, ∀ y ∈ (knapOf values caps ws).objective.expr.vars, Dict.get? (σ.set x u) y ≠ none := by
    intro u y hy
    by_cases hyx : y = x
    · subst hyx; rw [Dict.get?_set_self]; simp
    · rw [Dict.get?_set_ne _ _ (Ne.symm hyx)]
      obtain ⟨_, v, _, _, hv⟩ := hσ y hy hyx
      rw [show Dict.get? σ y = σ.get? y from rfl, hv]; simp
  rw [(kgoal values caps ws).eval _ (hbd 0)] at hv
  rw [(kgoal values caps ws).eval _ (hbd 1)] at hv'
  cases hv; cases hv'
  show ksum _ _ _ ≤ ksum _ _ _
  refine ksum_mono _ _ hpos (fun y => ?_)
  by_cases hyx : y = x
  · subst hyx
    rw [val_eq (Dict.get?_set_self ..), val_eq (Dict.get?_set_self ..)]; omega
  · simp only [val]
    rw [show Dict.get? (σ.set x 0) y = Dict.get? (σ.set x 1) y from (Dict.get?_set_ne _ _ (Ne.symm hyx)).trans (Dict.get?_set_ne _ _ (Ne.symm hyx)).symm]

theorem optimal_of (h : Heap) (hne : values ≠ []) {w : World} (hb : KBuilt h values caps rows w) (hcols : ∀ row ∈ rows, row.length = caps.length)
    (hpos : ∀ v ∈ values, 0 ≤ v) {a : SolveArgs} (hs : ∀ l, (a.shuffle l).Perm l) (ha : a.adds = [])
    (hcase : (values.filter (· ≠ 0)).length ≠ 1 ∨ values.length = 1 ∨ (a.solver.policy = .ordered ∧ values.head? ≠ some 0)) {n : Nat} {r : KnapSolution}
    (hr : knapCall a (some (knapOf values caps rows)) n w = some (.ok r)) (hopt : r.isOptimal = true) :
    ∃ x, r.solution = some x ∧ Selection values caps rows x ∧ ∀ y, Selection values caps rows y → dot y values ≤ dot x values := by
  have hg := kgoal values caps rows
  obtain ⟨s, hs1, hs2⟩ := knapCall_ok hr
  rcases hs2 with ⟨h0, rfl⟩ | ⟨τ, h0, hd⟩
  · exact absurd h0 ((C29_flag a _ w n s hs1).1.1 hopt).1
  have hmem := (C29_flag a _ w n s hs1).2 τ h0
  obtain ⟨hex, hC⟩ := hb.optSound hs ha hg.params n τ hmem
  rw [kdecode _ hcols hex] at hd
  cases hd
  refine ⟨_, rfl, sel_of_exact hex hC, fun y hy => ?_⟩
  obtain ⟨τ', hex', hC', rfl⟩ := exact_of_sel hy
  have hend : (optimizeRun a [(knapOf values caps rows).objective] n w).2.1.phase = .finished := by
    unfold optimalSolution at hs1; split at hs1
    · assumption
    · simp at hs1
    · simp at hs1
  obtain ⟨hsol, hiss⟩ := hb.isSolution hs ha hg.params (kvars_ne hne) n hend τ' hex' hC'
  have hok := hb.optOk hs ha hg.params
  have hV : ∀ x ∈ (knapOf values caps rows).objective.expr.vars, (w.model.domain? x).isSome := by
    intro x hx
    rw [hb.domain]
    obtain ⟨d, hd⟩ := Dict.get?_isSome_of_mem_keys (hg.vars x hx)
    simp [hd]
  have hv := hg.evalExact w.heap.params hex
  have hv' := hg.evalExact w.heap.params hex'
  rw [kbits, kbits, dot_ksum, dot_ksum]
  have hperm := kobj_vars values caps rows
  by_cases hlen : (knapOf values caps rows).objective.expr.vars.length = 1
  · have hl1 : (knz values.length values).length = 1 := by rw [← hlen, hperm.length_eq, List.length_map]
    have hkeys : w.model.pureVars.keys = (List.range values.length).map kname := by rw [hb.pureKeys, kvars_keys]
    obtain ⟨m, hm⟩ : ∃ m, values.length = m + 1 := ⟨values.length - 1, by have := List.length_pos_iff.2 hne; omega⟩
    have hx0 : (knapOf values caps rows).objective.expr.vars = [kname 0] ∧ (a.solver.policy = .ordered ∨ m = 0) := by
      have hin : 0 ∈ knz values.length values ∧ (a.solver.policy = .ordered ∨ m = 0) := by
        rcases hcase with h | h | ⟨h, h'⟩
        · exact absurd (by rw [← knz_length]; exact hl1) h
        · refine ⟨?_, .inr (by omega)⟩
          obtain ⟨i, hi⟩ := List.length_eq_one_iff.1 hl1
          have hmem : i ∈ knz values.length values := by rw [hi]; simp
          have : i < values.length := by simpa using (List.mem_filter.1 hmem).1
          have : i = 0 := by omega
          subst this; exact hmem
        · refine ⟨List.mem_filter.2 ⟨by simp [hm], ?_⟩, .inl h⟩
          cases values with
          | nil => exact absurd rfl hne
          | cons v vs => simpa using h'
      obtain ⟨i, hi⟩ := List.length_eq_one_iff.1 hl1
      have : 0 = i := by have := hin.1; rw [hi] at this; simpa using this
      subst this
      refine ⟨?_, hin.2⟩
      rw [hi] at hperm
      simpa using hperm
    refine C30_first_partial hok hsol (kname 0) ((List.range m).map (fun i => kname (i + 1))) ?_ ?_ hx0.1 (fun _ => hg.safe _) (hg.valued _ _)
      (kimproving hpos hb rows _) n s τ hs1 hopt h0 τ' hiss _ _ hv hv'
    · rw [hkeys, hm, List.range_succ_eq_map]; simp [List.map_map, Function.comp_def]
    · rcases hx0.2 with h | h
      · exact .inl h
      · right; subst h; rfl
  · exact C30_partial hok hsol (hb.vars_some (kvars_ne hne)) hV hlen (fun _ => hg.safe _) (hg.valued _ _) (fun x _ => kimproving hpos hb rows x)
      n s τ hs1 hopt h0 τ' hiss _ _ hv hv'

/-- C33 for values that are not negative, weights that can be iterated again, and any number of items with a value other than 0 except
exactly one; a single one is fine if there is no other item, or if it is the first one and the policy is ORDERED. -/
theorem C33_partial (h : Heap) (hne : values ≠ []) (hwf : WellFormed values caps rows) (hpos : ∀ v ∈ values, 0 ≤ v) :
    ∃ w k, knapBuild (values.map some) (caps.map some) (seqOf rows) ⟨.empty, h⟩ = (w, .ok (some k)) ∧
      ∀ a : SolveArgs, (∀ l, (a.shuffle l).Perm l) → a.adds = [] →
        ((values.filter (· ≠ 0)).length ≠ 1 ∨ values.length = 1 ∨ (a.solver.policy = .ordered ∧ values.head? ≠ some 0)) →
        ∀ n r, knapCall a (some k) n w = some (.ok r) → r.isOptimal = true →
          ∃ x, r.solution = some x ∧ Selection values caps rows x ∧ ∀ y, Selection values caps rows y → dot y values ≤ dot x values := by
  obtain ⟨w, hw, hb⟩ := seq_built h hne hwf
  exact ⟨w, _, hw, fun a hs ha hcase n r hr hopt => optimal_of h hne hb hwf.cols hpos hs ha hcase hr hopt⟩

theorem zip_fst_sublist : ∀ (l : List Nat) (c : List Int), ((l.zip c).map Prod.fst).Sublist l
  | [], _ => by simp
  | _ :: _, [] => by simp
  | _ :: l, _ :: c => by simpa using zip_fst_sublist l c

/-- Two sums that differ in one term. -/
theorem sum_near {i : Nat} {D : Int} (hD : 0 ≤ D) (f g : Nat × Int → Int) : ∀ L : List (Nat × Int), (L.map Prod.fst).Nodup →
    (∀ p ∈ L, p.1 ≠ i → g p = f p) → (∀ p ∈ L, p.1 = i → g p ≤ f p + D) → (L.map g).sum ≤ (L.map f).sum + D
  | [], _, _, _ => by simpa using hD
  | p :: L, hnd, h1, h2 => by
    simp only [List.map_cons, List.nodup_cons] at hnd
    simp only [List.map_cons, List.sum_cons]
    by_cases hp : p.1 = i
    · have : L.map g = L.map f := List.map_congr_left (fun q hq => h1 q (by simp [hq]) (by
        rintro rfl
        exact hnd.1 (hp ▸ List.mem_map_of_mem hq)))
      rw [this]
      have := h2 p (by simp) hp
      omega
    · have := sum_near hD f g L hnd.2 (fun q hq => h1 q (by simp [hq])) (fun q hq => h2 q (by simp [hq]))
      have := h1 p (by simp) hp
      omega

/-- Two choices of items that differ, among the items with a value other than 0, in one item. -/
theorem ksum_near {n : Nat} {c : List Int} {s s' : Name → Int} {i : Nat} (hs : ∀ j < n, s (kname j) = 0 ∨ s (kname j) = 1)
    (hs' : ∀ j < n, s' (kname j) = 0 ∨ s' (kname j) = 1) (h : ∀ j ∈ knz n c, j ≠ i → s (kname j) = s' (kname j)) :
    ksum n c s' ≤ ksum n c s + |c.getD i 0| := by
  unfold ksum
  refine sum_near (i := i) (abs_nonneg _) _ _ _ ?_ ?_ ?_
  · exact List.nodup_range.sublist (zip_fst_sublist _ _)
  · intro p hp hpi
    obtain ⟨h1, _, h3⟩ := mem_zip_range hp
    by_cases h0 : p.2 = 0
    · simp [h0]
    · rw [h p.1 (List.mem_filter.2 ⟨by simpa using h1, by simp [List.getD, h3, h0]⟩) hpi]
  · intro p hp hpi
    obtain ⟨h1, _, h3⟩ := mem_zip_range hp
    have : c.getD i 0 = p.2 := by rw [← hpi]; simp [List.getD, h3]
    rw [this]
    have h4 := le_abs_self p.2
    have h5 := neg_abs_le p.2
    have h6 := abs_nonneg p.2
    rcases hs p.1 h1 with e | e <;> rcases hs' p.1 h1 with e' | e' <;> simp only [e, e'] <;> omega

theorem near_of (h : Heap) (hne : values ≠ []) {w : World} (hb : KBuilt h values caps rows w) (hcols : ∀ row ∈ rows, row.length = caps.length)
    {a : SolveArgs} (hs : ∀ l, (a.shuffle l).Perm l) (ha : a.adds = []) {n : Nat} {r : KnapSolution}
    (hr : knapCall a (some (knapOf values caps rows)) n w = some (.ok r)) (hopt : r.isOptimal = true) :
    ∃ x, r.solution = some x ∧ Selection values caps rows x ∧
      ∀ y, Selection values caps rows y → ∃ v ∈ values, dot y values ≤ dot x values + |v| := by
  have hg := kgoal values caps rows
  obtain ⟨s, hs1, hs2⟩ := knapCall_ok hr
  rcases hs2 with ⟨h0, rfl⟩ | ⟨τ, h0, hd⟩
  · exact absurd h0 ((C29_flag a _ w n s hs1).1.1 hopt).1
  have hmem := (C29_flag a _ w n s hs1).2 τ h0
  obtain ⟨hex, hC⟩ := hb.optSound hs ha hg.params n τ hmem
  rw [kdecode _ hcols hex] at hd
  cases hd
  refine ⟨_, rfl, sel_of_exact hex hC, fun y hy => ?_⟩
  obtain ⟨τ', hex', hC', rfl⟩ := exact_of_sel hy
  have hend : (optimizeRun a [(knapOf values caps rows).objective] n w).2.1.phase = .finished := by
    unfold optimalSolution at hs1; split at hs1
    · assumption
    · simp at hs1
    · simp at hs1
  obtain ⟨hsol, hiss⟩ := hb.isSolution hs ha hg.params (kvars_ne hne) n hend τ' hex' hC'
  have hok := hb.optOk hs ha hg.params
  have hV : ∀ x ∈ (knapOf values caps rows).objective.expr.vars, (w.model.domain? x).isSome := by
    intro x hx
    rw [hb.domain]
    obtain ⟨d, hd⟩ := Dict.get?_isSome_of_mem_keys (hg.vars x hx)
    simp [hd]
  have hv := hg.evalExact w.heap.params hex
  have hv' := hg.evalExact w.heap.params hex'
  rw [kbits, kbits, dot_ksum, dot_ksum]
  by_cases hle : ksum values.length values (val τ') ≤ ksum values.length values (val τ)
  · obtain ⟨v, hv⟩ := List.exists_mem_of_ne_nil _ hne
    exact ⟨v, hv, by have := abs_nonneg v; omega⟩
  obtain ⟨z, hz, l, hl, hagree, u, hu, hule⟩ := C66_near hok hsol (hb.vars_some (kvars_ne hne)) hV
    (by rw [ha, List.append_nil]; exact hb.over hsol) (fun _ => hg.safe _) (hg.valued _ _) n s τ hs1 hopt h0 _ hv τ' hiss _ hv' hle
  have hule : u ≤ ksum values.length values (val τ) := hule
  obtain ⟨hexl, _⟩ := hb.optSound hs ha hg.params n l hl
  rw [hg.evalExact w.heap.params hexl] at hu
  cases hu
  have hperm := kobj_vars values caps rows
  rw [hperm.mem_iff] at hz
  obtain ⟨i, hi, rfl⟩ := List.mem_map.1 hz
  have hi' : i < values.length := by simpa using (List.mem_filter.1 hi).1
  have hbit : ∀ {σ : Subst}, Exact (kvars values.length) σ → ∀ j < values.length, val σ (kname j) = 0 ∨ val σ (kname j) = 1 := by
    intro σ hσ j hj
    obtain ⟨v, hv, hg⟩ := hσ.val (List.mem_range.2 hj)
    rw [val_eq hg]; simpa using hv
  refine ⟨values.getD i 0, by simp [List.getD, hi'], ?_⟩
  have := ksum_near (n := values.length) (c := values) (i := i) (hbit hexl) (hbit hex') (fun j hj hji => by
    simp only [val]
    rw [show Dict.get? l (kname j) = Dict.get? τ' (kname j) from hagree _ (by rw [hperm.mem_iff]; exact List.mem_map_of_mem hj) (fun he => hji (kname_inj he))])
  omega

/-- C33 for all values: a result that is called optimal is at most the value of one item away from the best selection. -/
theorem C33_near (h : Heap) (hne : values ≠ []) (hwf : WellFormed values caps rows) :
    ∃ w k, knapBuild (values.map some) (caps.map some) (seqOf rows) ⟨.empty, h⟩ = (w, .ok (some k)) ∧
      ∀ a : SolveArgs, (∀ l, (a.shuffle l).Perm l) → a.adds = [] → ∀ n r, knapCall a (some k) n w = some (.ok r) → r.isOptimal = true →
        ∃ x, r.solution = some x ∧ Selection values caps rows x ∧
          ∀ y, Selection values caps rows y → ∃ v ∈ values, dot y values ≤ dot x values + |v| := by
  obtain ⟨w, hw, hb⟩ := seq_built h hne hwf
  exact ⟨w, _, hw, fun a hs ha n r hr hopt => near_of h hne hb hwf.cols hs ha hr hopt⟩

/-! ## C34 -/

/-- C34, for at least one value: construction succeeds exactly if values, capacities and weights are ints, there are as many rows as values,
and each row has one entry per capacity. That the capacities are then enforced is `C32_partial`. -/
theorem C34_partial (h : Heap) (values capacities : List (Option Int)) (it : Iter (List (Option Int))) (hne : values ≠ []) :
    (∃ w k, knapBuild values capacities it ⟨.empty, h⟩ = (w, .ok k)) ↔
      ∃ vs cs rows, values = vs.map some ∧ capacities = cs.map some ∧ it.first = rows.map (fun r => r.map some) ∧ WellFormed vs cs rows := by
  constructor
  · rintro ⟨w, k, hk⟩
    obtain ⟨vs, cs, rows, h1, h2, h3, h4, h5⟩ := knapBuild_inv hne hk
    exact ⟨vs, cs, rows, h1, h2, h3, h4, h5⟩
  · rintro ⟨vs, cs, rows, rfl, rfl, h3, h4⟩
    obtain ⟨w, hw, _⟩ := knap_built h (by rintro rfl; exact hne rfl) h4.items h4.cols it h3
    exact ⟨w, _, hw⟩

theorem dot_nil (x : List Int) : dot x [] = 0 := by cases x <;> rfl

theorem dot_ones (l : List Int) : dot (List.replicate l.length 1) l = l.sum := by
  induction l with
  | nil => rfl
  | cons a l ih => simp [List.replicate_succ, dot, ih]

theorem dot_le_sum : ∀ (x l : List Int), (∀ b ∈ x, b = 0 ∨ b = 1) → (∀ v ∈ l, 0 ≤ v) → dot x l ≤ l.sum
  | [], l, _, hl => by simpa [dot] using List.sum_nonneg hl
  | _ :: _, [], _, _ => by simp [dot]
  | b :: x, v :: l, hx, hl => by
    have ih := dot_le_sum x l (fun c hc => hx c (by simp [hc])) (fun c hc => hl c (by simp [hc]))
    have hv := hl v (by simp)
    rcases hx b (by simp) with rfl | rfl <;> simp [dot] <;> omega

/-- What becomes of weights that can be iterated only once, in general: they are accepted exactly like a list, and then forgotten. Any choice of
items may be returned, the reported weights are 0 for every capacity, and nothing but a negative capacity makes the problem infeasible. An
"optimal" result (under the conditions of `C33_partial`) has the value of all the items together. -/
theorem C34_once_general (h : Heap) (hne : values ≠ []) (hwf : WellFormed values caps rows) :
    ∃ w k, knapBuild (values.map some) (caps.map some) (onceOf rows) ⟨.empty, h⟩ = (w, .ok (some k)) ∧
      ∀ a : SolveArgs, (∀ l, (a.shuffle l).Perm l) → a.adds = [] → ∀ n r, knapCall a (some k) n w = some (.ok r) →
        (∀ x, r.solution = some x → (x.length = values.length ∧ ∀ b ∈ x, b = 0 ∨ b = 1) ∧ r.value = some (dot x values) ∧
          r.weights = some (caps.map (fun _ => 0)) ∧ ∀ c ∈ caps, 0 ≤ c) ∧
        (r.solution = none → (optimizeRun a [k.objective] n w).2.1.interrupt = none → ∃ c ∈ caps, c < 0) ∧
        ((∀ v ∈ values, 0 ≤ v) →
          ((values.filter (· ≠ 0)).length ≠ 1 ∨ values.length = 1 ∨ (a.solver.policy = .ordered ∧ values.head? ≠ some 0)) →
          r.isOptimal = true → r.value = some values.sum) := by
  obtain ⟨w, hw, hb⟩ := once_built h hne hwf
  have hcols : ∀ row ∈ ([] : List (List Int)), row.length = caps.length := by simp
  have hcol : ∀ j, column [] j = [] := fun _ => rfl
  have hall : ∀ x : List Int, x.length = values.length → (∀ b ∈ x, b = 0 ∨ b = 1) → (∀ c ∈ caps, 0 ≤ c) → Selection values caps [] x :=
    fun x h1 h2 h3 => ⟨h1, h2, fun j c hc => by rw [hcol, dot_nil]; exact h3 c (List.mem_of_getElem? hc)⟩
  refine ⟨w, _, hw, fun a hs ha n r hr => ?_⟩
  have hf := feasible_of h hb hcols hs ha hr
  have hx : ∀ x, r.solution = some x → ∀ c ∈ caps, 0 ≤ c := by
    intro x hx c hc
    obtain ⟨j, hj⟩ := List.mem_iff_getElem?.1 hc
    have := (hf.1 x hx).1.fits j c hj
    rwa [hcol, dot_nil] at this
  refine ⟨fun x h0 => ?_, fun h0 hint => ?_, fun hpos hcase hopt => ?_⟩
  · obtain ⟨h1, h2, h3⟩ := hf.1 x h0
    refine ⟨⟨h1.length, h1.bits⟩, h2, ?_, hx x h0⟩
    rw [h3]
    simp only [hcol, dot_nil, List.map_const', List.length_range]
  · by_contra hc
    push Not at hc
    exact none_of h hne hb hcols hs ha hr h0 hint ⟨List.replicate values.length 0, hall _ (by simp) (fun b hb => .inl (List.eq_of_mem_replicate hb)) hc⟩
  · obtain ⟨x, h0, hsel, hmax⟩ := optimal_of h hne hb hcols hpos hs ha hcase hr hopt
    have h1 := hmax (List.replicate values.length 1) (hall _ (by simp) (fun b hb => .inr (List.eq_of_mem_replicate hb)) (hx x h0))
    rw [dot_ones] at h1
    have h2 := dot_le_sum x values hsel.bits hpos
    rw [(hf.1 x h0).2.1, show dot x values = values.sum by omega]

end

/-- Specification: a row that cannot be used, as the `i`-th of the weights for `n` values and `m` capacities, and what is raised for it. -/
def RowFault (n m i : Nat) (row : List (Option Int)) (e : Err) : Prop :=
  (e = .valueError ∧ (n ≤ i ∨ row.length ≠ m)) ∨ (e = .typeError ∧ i < n ∧ row.length = m ∧ none ∈ row)

theorem asInt_none {l : List (Option Int)} (h : none ∈ l) : Res.each asInt l = .error .typeError := by
  induction l with
  | nil => simp at h
  | cons o l ih =>
    cases o with
    | none => rfl
    | some v =>
      have h : none ∈ l := by simpa using h
      simp [Res.each, asInt, ih h]

theorem all_some {l : List (Option Int)} (h : none ∉ l) : ∃ vs : List Int, l = vs.map some := by
  induction l with
  | nil => exact ⟨[], rfl⟩
  | cons o l ih =>
    obtain ⟨vs, rfl⟩ := ih (fun hc => h (by simp [hc]))
    cases o with
    | none => simp at h
    | some v => exact ⟨v :: vs, rfl⟩

theorem row_fine {n m i : Nat} {row : List (Option Int)} (h : ∀ e, ¬ RowFault n m i row e) : i < n ∧ row.length = m ∧ none ∉ row := by
  by_cases h1 : n ≤ i
  · exact absurd (.inl ⟨rfl, .inl h1⟩) (h .valueError)
  by_cases h2 : row.length = m
  · exact ⟨by omega, h2, fun h3 => h .typeError (.inr ⟨rfl, by omega, h2, h3⟩)⟩
  · exact absurd (.inl ⟨rfl, .inr h2⟩) (h .valueError)

theorem knapRows_fault {n m : Nat} {e : Err} {row : List (Option Int)} : ∀ {rows : List (List (Option Int))} {k i : Nat}, rows[i]? = some row →
    RowFault n m (k + i) row e → (∀ j row' e', j < i → rows[j]? = some row' → ¬ RowFault n m (k + j) row' e') → knapRows n m k rows = .error e := by
  intro rows
  induction rows with
  | nil => intro k i h; simp at h
  | cons r rows ih =>
    intro k i h hf hfirst
    cases i with
    | zero =>
      simp only [List.getElem?_cons_zero, Option.some.injEq] at h
      subst h
      rcases hf with ⟨rfl, hf⟩ | ⟨rfl, h1, h2, h3⟩
      · by_cases h1 : k ≥ n
        · simp [knapRows, h1]
        · have h2 : r.length ≠ m := hf.resolve_left h1
          simp [knapRows, h1, h2]
      · have h1 : ¬ k ≥ n := by omega
        simp [knapRows, h1, h2, asInt_none h3]
    | succ i =>
      obtain ⟨h1, h2, h3⟩ := row_fine (fun e' => hfirst 0 r e' (by omega) rfl)
      obtain ⟨vs, rfl⟩ := all_some h3
      have hrec := ih (k := k + 1) (i := i) h (by rwa [show k + 1 + i = k + (i + 1) by omega]) (fun j row' e' hj hr => by
        have := hfirst (j + 1) row' e' (by omega) hr
        rwa [show k + 1 + j = k + (j + 1) by omega])
      have h1 : ¬ k ≥ n := by omega
      have h2 : ¬ (vs.map some).length ≠ m := by omega
      unfold knapRows
      rw [if_neg h1, if_neg h2, asInts, ok_bind, hrec]
      rfl

/-- What is raised for input that is not accepted, and that nothing has happened then: values, capacities, then the rows one by one, the first one that cannot be
used, and last the number of rows. -/
theorem C34_errors (w : World) (values capacities : List (Option Int)) (it : Iter (List (Option Int))) (hne : values ≠ []) :
    (none ∈ values ∨ none ∈ capacities → knapBuild values capacities it w = (w, .error .typeError)) ∧
    (none ∉ values → none ∉ capacities →
      (∀ i row e, it.first[i]? = some row → RowFault values.length capacities.length i row e →
        (∀ j row' e', j < i → it.first[j]? = some row' → ¬ RowFault values.length capacities.length j row' e') →
        knapBuild values capacities it w = (w, .error e)) ∧
      ((∀ i row e, it.first[i]? = some row → ¬ RowFault values.length capacities.length i row e) → it.first.length < values.length →
        knapBuild values capacities it w = (w, .error .valueError))) := by
  have hemp : values.isEmpty = false := by cases values with | nil => exact absurd rfl hne | cons _ _ => rfl
  unfold knapBuild
  rw [hemp]
  simp only [Bool.false_eq_true, if_false, Api.bind_apply]
  refine ⟨fun h => ?_, fun hv hc => ?_⟩
  · by_cases hv : none ∈ values
    · simp [Api.lift, asInt_none hv]
    · obtain ⟨vs, rfl⟩ := all_some hv
      simp [Api.lift, asInts, asInt_none (h.resolve_left hv)]
  · obtain ⟨vs, rfl⟩ := all_some hv
    obtain ⟨cs, rfl⟩ := all_some hc
    simp only [Api.lift, asInts, List.length_map]
    refine ⟨fun i row e h1 h2 h3 => ?_, fun h1 h2 => ?_⟩
    · rw [knapRows_fault (k := 0) h1 (by simpa using h2) (by simpa using h3)]
    · have hfine : ∀ i row, it.first[i]? = some row → i < vs.length ∧ row.length = cs.length ∧ none ∉ row :=
        fun i row h => row_fine (fun e => h1 i row e h)
      obtain ⟨rows, hrows⟩ : ∃ rows : List (List Int), it.first = rows.map (fun r => r.map some) := by
        have : ∀ l : List (List (Option Int)), (∀ row ∈ l, none ∉ row) → ∃ rows : List (List Int), l = rows.map (fun r => r.map some) := by
          intro l hl
          induction l with
          | nil => exact ⟨[], rfl⟩
          | cons r l ih =>
            obtain ⟨rows, rfl⟩ := ih (fun r' hr => hl r' (by simp [hr]))
            obtain ⟨vs, rfl⟩ := all_some (hl r (by simp))
            exact ⟨vs :: rows, rfl⟩
        exact this _ (fun row hr => by
          obtain ⟨i, hi⟩ := List.mem_iff_getElem?.1 hr
          exact (hfine i row hi).2.2)
      have hlen : rows.length < vs.length := by rw [hrows, List.length_map] at h2; exact h2
      have hk : knapRows vs.length cs.length 0 it.first = .ok rows := by
        rw [hrows]
        refine knapRows_ok rows (fun r hr => ?_) 0 (by omega)
        have hr' : r.map some ∈ it.first := by rw [hrows]; exact List.mem_map_of_mem (f := fun r : List Int => r.map some) hr
        obtain ⟨i, hi⟩ := List.mem_iff_getElem?.1 hr'
        simpa using (hfine i _ hi).2.1
      rw [hk]
      simp [hlen, Api.raise]

/-! Of two rows that cannot be used the first one counts. -/

example : knapBuild [some 1, some 2] [some 3] (.seq [[some 1, some 1], [none]]) ⟨.empty, heap0⟩ = (⟨.empty, heap0⟩, .error .valueError) :=
  ((C34_errors _ _ _ _ (by simp)).2 (by simp) (by simp)).1 0 _ _ rfl (.inl ⟨rfl, .inr (by simp)⟩) (fun j _ _ hj => absurd hj (by omega))

/-- C34 is false of the code: without values everything is accepted; calling the optimizer then raises. -/
theorem C34_empty_refuted (capacities : List (Option Int)) (it : Iter (List (Option Int))) (w : World) (a : SolveArgs) (n : Nat) :
    knapBuild [] capacities it w = (w, .ok none) ∧ knapCall a none n w = some (.error .attributeError) := ⟨rfl, rfl⟩

/-- The result of building and calling. -/
def knapRun (a : SolveArgs) (values caps : List Int) (it : Iter (List (Option Int))) (n : Nat) : Option (Res KnapSolution) :=
  let r := built (knapBuild (values.map some) (caps.map some) it) none
  knapCall a r.2 n r.1

/-- C34 and C32 are false of the code for a one-shot iterable of weights: one item of weight 2, capacity 1, and the item is selected. -/
theorem C34_once_run : knapRun exArgs [5] [1] (onceOf [[2]]) 10 = some (.ok ⟨true, some [1], some 5, some [0]⟩) := by decide +kernel

theorem C34_once_refuted : ∃ r x, knapRun exArgs [5] [1] (onceOf [[2]]) 10 = some (.ok r) ∧ WellFormed [5] [1] [[2]] ∧
    r.solution = some x ∧ ¬ Selection [5] [1] [[2]] x ∧ r.weights ≠ some [dot x (column [[2]] 0)] :=
  ⟨_, _, C34_once_run, ⟨rfl, by decide⟩, rfl, fun h => absurd (h.fits 0 1 rfl) (by decide), by decide⟩

/-- The full claim of C33. -/
def C33 : Prop := ∀ (values caps : List Int) (rows : List (List Int)), values ≠ [] → WellFormed values caps rows →
  ∀ n r x, knapRun exArgs values caps (seqOf rows) n = some (.ok r) → r.isOptimal = true → r.solution = some x →
    ∀ y, Selection values caps rows y → dot y values ≤ dot x values

/-- C33 is false of the code if exactly one item has a value other than 0: the best selection is missed. -/
theorem C33_single_run : knapRun exArgs [5, 0] [1] (seqOf [[1], [1]]) 20 = some (.ok ⟨true, some [0, 1], some 0, some [1]⟩) := by decide +kernel

theorem C33_single_refuted : ¬ C33 := by
  intro h
  have hy : Selection [5, 0] [1] [[1], [1]] [1, 0] := ⟨rfl, by decide, fun j c hc => by
    cases j with
    | zero => cases hc; decide
    | succ j => simp at hc⟩
  exact absurd (h _ _ _ (by decide) ⟨rfl, by decide⟩ _ _ _ C33_single_run rfl rfl [1, 0] hy) (by decide)

/-- C33 is false of the code if a value is negative. -/
theorem C33_negative_run : knapRun exArgs [-1, 1] [2] (seqOf [[1], [1]]) 20 = some (.ok ⟨true, some [1, 1], some 0, some [2]⟩) := by decide +kernel

theorem C33_negative_refuted : ¬ C33 := by
  intro h
  have hy : Selection [-1, 1] [2] [[1], [1]] [0, 1] := ⟨rfl, by decide, fun j c hc => by
    cases j with
    | zero => cases hc; decide
    | succ j => simp at hc⟩
  exact absurd (h _ _ _ (by decide) ⟨rfl, by decide⟩ _ _ _ C33_negative_run rfl rfl [0, 1] hy) (by decide)

/-- With `C33_near` in these two cases: the best selections `[1, 0]` and `[0, 1]` are better than the results by 5 and by 1, the value of one item. -/
example : (∃ v ∈ [(5 : Int), 0], dot [1, 0] [5, 0] = dot [0, 1] [5, 0] + |v|) ∧ ∃ v ∈ [(-1 : Int), 1], dot [0, 1] [-1, 1] = dot [1, 1] [-1, 1] + |v| :=
  ⟨⟨5, by decide, by decide⟩, ⟨-1, by decide, by decide⟩⟩

/-! A case that meets the hypotheses of `C32_partial` and `C33_partial`, with two items competing for the capacity. -/

example : WellFormed [1, 2] [2] [[1], [2]] ∧ (∀ v ∈ [(1 : Int), 2], 0 ≤ v) ∧ (([1, 2] : List Int).filter (· ≠ 0)).length ≠ 1 := ⟨⟨rfl, by decide⟩, by decide, by decide⟩

example : knapRun exArgs [1, 2] [2] (seqOf [[1], [2]]) 20 = some (.ok ⟨true, some [0, 1], some 2, some [2]⟩) := by decide +kernel

/-! Too few rows, a row too short, a weight that is not an int. -/

example : (knapBuild [some 1, some 2] [some 2] (.seq [[some 1]]) ⟨.empty, heap0⟩).2 matches .error .valueError := rfl
example : (knapBuild [some 1] [some 2, some 3] (.seq [[some 1]]) ⟨.empty, heap0⟩).2 matches .error .valueError := rfl
example : (knapBuild [some 1] [some 2] (.seq [[none]]) ⟨.empty, heap0⟩).2 matches .error .typeError := rfl

end Satisfy.Props
