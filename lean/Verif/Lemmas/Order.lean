import Verif.Lemmas.Solve
import Verif.Lemmas.Setup
import Verif.Lemmas.Vars
import Verif.SpecOrder
/-! Sorting, and what `_setup` collects for the sort keys. -/

namespace Satisfy

/-! ## Sorting -/

theorem insertSorted_eq {α} (lt : α → α → Bool) (x : α) (l : List α) :
    insertSorted lt x l = l.takeWhile (fun y => lt y x) ++ x :: l.dropWhile (fun y => lt y x) := by
  induction l with
  | nil => rfl
  | cons y l ih =>
    simp only [insertSorted, List.takeWhile_cons, List.dropWhile_cons]
    cases h : lt y x <;> simp [ih]

theorem takeWhile_all {α} (p : α → Bool) (l : List α) : ∀ y ∈ l.takeWhile p, p y = true := by
  induction l with
  | nil => simp
  | cons a l ih =>
    intro y hy
    rw [List.takeWhile_cons] at hy
    split at hy
    · rcases List.mem_cons.1 hy with rfl | h
      · assumption
      · exact ih y h
    · simp at hy

theorem insertSorted_sublist {α} (lt : α → α → Bool) (x : α) (l : List α) : l.Sublist (insertSorted lt x l) := by
  rw [insertSorted_eq]
  conv => lhs; rw [← List.takeWhile_append_dropWhile (p := fun y => lt y x) (l := l)]
  exact List.Sublist.append (.refl _) (List.sublist_cons_self _ _)

/-- A strict weak order. -/
structure Weak {α : Type} (lt : α → α → Bool) : Prop where
  asymm : ∀ x y, lt x y = true → lt y x = false
  negTrans : ∀ x y z, lt x y = false → lt y z = false → lt x z = false

theorem dropWhile_ge {α} {lt : α → α → Bool} (hw : Weak lt) (x : α) {l : List α} (h : l.Pairwise (fun a b => lt b a = false)) :
    ∀ y ∈ l.dropWhile (fun y => lt y x), lt y x = false := by
  induction l with
  | nil => simp
  | cons a l ih =>
    intro y hy
    rw [List.dropWhile_cons] at hy
    rw [List.pairwise_cons] at h
    split at hy
    · exact ih h.2 y hy
    · rename_i ha
      have ha : lt a x = false := by simpa using ha
      rcases List.mem_cons.1 hy with rfl | hy
      · exact ha
      · exact hw.negTrans _ _ _ (h.1 y hy) ha

theorem pySorted_sorted {α} {lt : α → α → Bool} (hw : Weak lt) (l : List α) : (pySorted lt l).Pairwise (fun a b => lt b a = false) := by
  induction l with
  | nil => exact .nil
  | cons x l ih =>
    rw [pySorted, insertSorted_eq, List.pairwise_append, List.pairwise_cons]
    refine ⟨ih.sublist (List.takeWhile_sublist _), ⟨fun y hy => dropWhile_ge hw x ih y hy, ih.sublist (List.dropWhile_sublist _)⟩, ?_⟩
    intro a ha b hb
    have h1 : lt a x = true := takeWhile_all _ _ a ha
    rcases List.mem_cons.1 hb with rfl | hb
    · exact hw.asymm _ _ h1
    · exact hw.negTrans _ _ _ (dropWhile_ge hw x ih b hb) (hw.asymm _ _ h1)

theorem pySorted_stable {α} {lt : α → α → Bool} (x y : α) (hyx : lt y x = false) :
    ∀ l : List α, [x, y].Sublist l → [x, y].Sublist (pySorted lt l) := by
  intro l
  induction l with
  | nil => intro h; cases h
  | cons a l ih =>
    intro h
    rw [pySorted]
    cases h with
    | cons _ h => exact (ih h).trans (insertSorted_sublist lt a _)
    | cons_cons _ h =>
      have hy : y ∈ pySorted lt l := (pySorted_perm lt l).mem_iff.2 (h.subset (by simp))
      rw [insertSorted_eq]
      rw [← List.takeWhile_append_dropWhile (p := fun b => lt b x) (l := pySorted lt l)] at hy
      rcases List.mem_append.1 hy with hy | hy
      · have := takeWhile_all _ _ y hy
        simp only [hyx] at this
        cases this
      · exact List.Sublist.trans (List.Sublist.cons_cons _ (List.singleton_sublist.2 hy)) (List.sublist_append_right _ _)

theorem sortedAs_pySorted {before : Name → Name → Prop} {lt : Name → Name → Bool} (hw : Weak lt)
    (hb : ∀ x y, before x y ↔ lt x y = true) (l : List Name) : SortedAs before l (pySorted lt l) where
  perm := pySorted_perm lt l
  sorted := (pySorted_sorted hw l).imp (fun {a b} h => by rw [hb, h]; simp)
  stable x y h _ h2 := pySorted_stable x y (by rw [hb] at h2; simpa using h2) l h

theorem SortedAs.congr {before before' : Name → Name → Prop} {base l : List Name} (h : SortedAs before base l)
    (hb : ∀ x ∈ base, ∀ y ∈ base, before x y ↔ before' x y) : SortedAs before' base l where
  perm := h.perm
  sorted := by
    refine List.Pairwise.imp_of_mem ?_ h.sorted
    intro a b ha hb' hn
    rwa [← hb b (h.perm.mem_iff.1 hb') a (h.perm.mem_iff.1 ha)]
  stable x y hs h1 h2 := by
    have hx := hs.subset (show x ∈ [x, y] by simp)
    have hy := hs.subset (show y ∈ [x, y] by simp)
    exact h.stable x y hs (by rwa [hb x hx y hy]) (by rwa [hb y hy x hx])

/-- `tuple(reversed(sorted(l, key, reverse=True)))`: increasing, equal keys in reverse. -/
theorem sortedAs_reverse {before : Name → Name → Prop} {lt : Name → Name → Bool} (hw : Weak lt)
    (hb : ∀ x y, before x y ↔ lt x y = true) (l : List Name) :
    SortedAs before l.reverse (pySorted (fun x y => lt y x) l).reverse where
  perm := (List.reverse_perm _).trans ((pySorted_perm _ l).trans (List.reverse_perm l).symm)
  sorted := by
    rw [List.pairwise_reverse]
    refine (pySorted_sorted (lt := fun x y => lt y x) ⟨fun x y h => hw.asymm _ _ h, fun x y z h1 h2 => hw.negTrans _ _ _ h2 h1⟩ l).imp ?_
    intro a b h
    rw [hb]
    simp [h]
  stable x y h _ h2 := by
    have h' : [y, x].Sublist l := by
      have := List.reverse_sublist.2 h
      simpa using this
    have := pySorted_stable (lt := fun x y => lt y x) y x (by rw [hb] at h2; simpa using h2) l h'
    have := List.reverse_sublist.2 this
    simpa using this

theorem weak_key {κ : Type} [LinearOrder κ] (f : Name → κ) : Weak (fun x y => decide (f x < f y)) where
  asymm x y h := by simp only [decide_eq_true_eq, decide_eq_false_iff_not, not_lt] at h ⊢; exact h.le
  negTrans x y z h1 h2 := by simp only [decide_eq_false_iff_not, not_lt] at *; exact h2.trans h1

theorem weak_key' {κ : Type} [LinearOrder κ] (f : Name → κ) : Weak (fun x y => decide (f y < f x)) where
  asymm x y h := by simp only [decide_eq_true_eq, decide_eq_false_iff_not, not_lt] at h ⊢; exact h.le
  negTrans x y z h1 h2 := by simp only [decide_eq_false_iff_not, not_lt] at *; exact h1.trans h2

/-! ## Variables of a constraint -/

theorem Constraint.vars_nodup (c : Constraint) : c.vars.Nodup := by
  unfold Constraint.vars CKind.vars
  split
  · exact .nil
  · exact nodup_vars _
  · exact nodup_dedup _

theorem filter_ne_length {l : List Name} (h : l.Nodup) {x : Name} (hx : x ∈ l) :
    (l.filter (fun y => decide (y ≠ x))).length = l.length - 1 := by
  induction l with
  | nil => simp at hx
  | cons a l ih =>
    rw [List.nodup_cons] at h
    by_cases ha : a = x
    · subst ha
      have : l.filter (fun y => decide (y ≠ a)) = l := by
        rw [List.filter_eq_self]
        intro y hy
        simp only [decide_eq_true_eq]
        rintro rfl
        exact h.1 hy
      simp only [List.filter_cons, ne_eq, not_true, decide_false, Bool.false_eq_true, if_false, List.length_cons, Nat.add_sub_cancel]
      rw [show (fun y => decide ¬ y = a) = (fun y => decide (y ≠ a)) from rfl, this]
    · have hx' : x ∈ l := by rcases List.mem_cons.1 hx with rfl | h; exact absurd rfl ha; exact h
      have hpos := List.length_pos_of_mem hx'
      have := ih h.2 hx'
      simp only [List.filter_cons, ne_eq, ha, not_false_eq_true, decide_true, if_true, List.length_cons, Nat.add_sub_cancel] at this ⊢
      omega

/-! ## What `_setup` collects -/

/-- The sort keys for the constraints looked at so far. -/
structure KeyInv (m : Model) (cs : List Constraint) (info : Info) : Prop where
  bounds : ∀ x, info.bounds x = conWeight cs x
  sizes : ∀ x, info.sizes x = ((m.pureVars.get? x).getD []).length
  count : info.groups.length = (cs.filter (fun c => c.kind.isAllDiff)).length
  below : ∀ x, ∀ i ∈ info.varGroups x, i < info.groups.length
  first : ∀ x, (info.varGroups x).min? = (cs.filter (fun c => c.kind.isAllDiff)).findIdx? (fun c => decide (x ∈ c.vars))

theorem keyInv_init (m : Model) : KeyInv m [] (.init m) where
  bounds _ := rfl
  sizes _ := rfl
  count := rfl
  below x i h := by simp [Info.init] at h
  first _ := rfl

theorem conWeight_append (cs : List Constraint) (c : Constraint) (x : Name) :
    conWeight (cs ++ [c]) x = addBounds c.vars (conWeight cs) x := by
  unfold conWeight addBounds
  rw [List.filter_append]
  by_cases h : x ∈ c.vars
  · simp only [List.map_append, List.sum_append, h, if_true]
    rw [← filter_ne_length c.vars_nodup h]
    simp [h]
  · simp [h]

theorem min?_append_single {l : List Nat} {g : Nat} (h : ∀ i ∈ l, i < g) : (l ++ [g]).min? = match l.min? with | some i => some i | none => some g := by
  cases l with
  | nil => rfl
  | cons a l =>
    have hmin : ∀ (l : List Nat) (a : Nat), (∀ i ∈ l, i < g) → a < g → List.foldl min a (l ++ [g]) = List.foldl min a l := by
      intro l
      induction l with
      | nil => intro a _ ha; simp [Nat.le_of_lt ha]
      | cons b l ih =>
        intro a hl ha
        simp only [List.cons_append, List.foldl_cons]
        exact ih _ (fun i hi => hl i (by simp [hi])) (lt_of_le_of_lt (min_le_left _ _) ha)
    simp only [List.cons_append, List.min?_cons']
    rw [hmin l a (fun i hi => h i (by simp [hi])) (h a (by simp))]

theorem setupOne_key {m : Model} {comp : Bool} {c : Constraint} {cs : List Constraint} {h h' : Heap} {info info' : Info}
    (hi : KeyInv m cs info) (hs : setupOne comp c h info = (h', .ok info')) : KeyInv m (cs ++ [c]) info' := by
  have hb : ∀ x, addBounds c.vars info.bounds x = conWeight (cs ++ [c]) x := by
    intro x
    rw [conWeight_append]
    unfold addBounds
    rw [hi.bounds]
  unfold setupOne at hs
  simp only at hs
  split at hs
  · rename_i ns hk
    simp only [Prod.mk.injEq, Except.ok.injEq] at hs
    obtain ⟨_, rfl⟩ := hs
    have had : c.kind.isAllDiff = true := by simp [CKind.isAllDiff, hk]
    refine ⟨hb, hi.sizes, ?_, ?_, ?_⟩
    · simp [List.filter_append, had, hi.count]
    · intro x i hx
      simp only [List.length_append, List.length_singleton] at hx ⊢
      split at hx
      · rcases List.mem_append.1 hx with h | h
        · have := hi.below x i h; omega
        · simp at h; omega
      · have := hi.below x i hx; omega
    · intro x
      simp only [List.filter_append, List.filter_cons, had, if_true, List.filter_nil, List.findIdx?_append, ← hi.first, ← hi.count]
      split
      · rename_i hx
        rw [min?_append_single (hi.below x)]
        cases (info.varGroups x).min? <;> simp [hx]
      · rename_i hx
        cases (info.varGroups x).min? <;> simp [hx]
  · rename_i hk
    have had : c.kind.isAllDiff = false := by
      unfold CKind.isAllDiff
      split
      · rename_i ns h; exact absurd h (hk ns)
      · rfl
    have key : ∀ info'' : Info, info''.bounds = addBounds c.vars info.bounds → info''.sizes = info.sizes → info''.groups = info.groups →
        info''.varGroups = info.varGroups → KeyInv m (cs ++ [c]) info'' := by
      intro i2 h1 h2 h3 h4
      refine ⟨fun x => by rw [h1, hb], fun x => by rw [h2, hi.sizes], ?_, ?_, ?_⟩
      · simp [h3, List.filter_append, had, hi.count]
      · rw [h3, h4]; exact hi.below
      · intro x; simp [h4, List.filter_append, had, hi.first]
    split at hs
    · split at hs
      · split at hs
        · simp only [Prod.mk.injEq, Except.ok.injEq] at hs
          rw [← hs.2]
          refine key _ ?_ rfl rfl rfl
          rfl
        · simp at hs
      · simp only [Prod.mk.injEq, Except.ok.injEq] at hs
        rw [← hs.2]
        refine key _ ?_ rfl rfl rfl
        rfl
    · simp only [Prod.mk.injEq, Except.ok.injEq] at hs
      rw [← hs.2]
      refine key _ ?_ rfl rfl rfl
      rfl

theorem setupLoop_key {m : Model} {comp : Bool} (rest : List Constraint) : ∀ {pre : List Constraint} {h h' : Heap} {info info' : Info},
    KeyInv m pre info → setupLoop comp rest h info = (h', .ok info') → KeyInv m (pre ++ rest) info' := by
  induction rest with
  | nil =>
    intro pre h h' info info' hi hs
    simp only [setupLoop, Prod.mk.injEq, Except.ok.injEq] at hs
    rw [← hs.2, List.append_nil]; exact hi
  | cons c rest ih =>
    intro pre h h' info info' hi hs
    rw [setupLoop] at hs
    cases h1 : setupOne comp c h info with
    | mk h1' r =>
      rw [h1] at hs
      cases r with
      | error e => simp at hs
      | ok info1 =>
        have := ih (setupOne_key hi h1) hs
        simpa using this

theorem setup_key {m : Model} {comp : Bool} {adds : List Constraint} {h h' : Heap} {info : Info}
    (hs : setup comp m adds h = (h', .ok info)) : KeyInv m (m.constraints ++ adds) info := by
  unfold setup at hs
  cases hl : setupLoop comp (m.constraints ++ adds) h (.init m) with
  | mk h1 r =>
    rw [hl] at hs
    cases r with
    | error e => simp at hs
    | ok info1 =>
      simp only at hs
      split at hs
      · simp at hs
      · simp only [Prod.mk.injEq, Except.ok.injEq] at hs
        rw [← hs.2]
        simpa using setupLoop_key _ (keyInv_init m) hl

/-! ## The order -/

theorem pureVars_declared (m : Model) : m.pureVars.keys = m.declared := by
  unfold Model.pureVars Model.declared Dict.keys
  induction m.vars with
  | nil => rfl
  | cons p l ih =>
    cases hd : p.2.domain <;> simp_all

theorem groupPrio_eq {m : Model} {cs : List Constraint} {info : Info} (hk : KeyInv m cs info) (x : Name) : groupPrio info x = firstGroup cs x := by
  unfold groupPrio firstGroup
  rw [hk.first]
  rfl

theorem groupsLt_iff {m : Model} (hn : m.vars.keys.Nodup) {cs : List Constraint} {info : Info} (hk : KeyInv m cs info) (x y : Name) :
    GroupsBefore m cs x y ↔ groupsLt info x y = true := by
  unfold GroupsBefore groupsLt
  simp only [groupPrio_eq hk, hk.bounds, hk.sizes, Model.size, pureVars_get? hn]
  split
  · simp_all
  · split
    · constructor
      · intro h; omega
      · simp
    · have he : firstGroup cs x = firstGroup cs y := by omega
      split
      · simp_all
      · split
        · constructor
          · intro h; omega
          · simp
        · simp only [decide_eq_true_eq]
          omega

theorem weak_groupsLt (info : Info) : Weak (groupsLt info) := by
  have key : ∀ x y, groupsLt info x y = true ↔ groupPrio info x < groupPrio info y ∨ groupPrio info x = groupPrio info y ∧
      (info.bounds x < info.bounds y ∨ info.bounds x = info.bounds y ∧ info.sizes x < info.sizes y) := by
    intro x y
    unfold groupsLt
    split
    · simp_all
    · split
      · constructor
        · simp
        · intro h; omega
      · split
        · constructor
          · intro _; omega
          · simp
        · split
          · constructor
            · simp
            · intro h; omega
          · simp only [decide_eq_true_eq]; omega
  constructor
  · intro x y h
    rw [key] at h
    rw [← Bool.not_eq_true, key]
    omega
  · intro x y z h1 h2
    rw [← Bool.not_eq_true, key] at h1 h2 ⊢
    omega

theorem conCount_eq {m : Model} {H : Heap} {cs : List Constraint} {info : Info} (hi : SetupInv m H cs info) (x : Name) :
    (info.cons x).length = conCount cs x := by
  rw [hi.cons]
  unfold conCount
  congr 1
  apply List.filter_congr
  intro c _
  have had : c.isAD = c.kind.isAllDiff := rfl
  rw [had]
  by_cases hx : x ∈ c.vars
  · have := filter_ne_length c.vars_nodup hx
    have hpos := List.length_pos_of_mem hx
    have hany : c.vars.any (fun y => decide (y ≠ x)) = decide (c.vars.length ≠ 1) := by
      rw [Bool.eq_iff_iff]
      simp only [decide_eq_true_eq]
      constructor
      · intro h
        obtain ⟨y, hy, hyx⟩ := List.any_eq_true.1 h
        have : 0 < (c.vars.filter (fun y => decide (y ≠ x))).length := List.length_pos_of_mem (List.mem_filter.2 ⟨hy, hyx⟩)
        omega
      · intro h
        have : 0 < (c.vars.filter (fun y => decide (y ≠ x))).length := by omega
        obtain ⟨y, hy⟩ := List.exists_mem_of_length_pos this
        exact List.any_eq_true.2 ⟨y, (List.mem_filter.1 hy).1, (List.mem_filter.1 hy).2⟩
    rw [hany]
    simp [hx]
  · simp [hx]

theorem policyOrder {m : Model} (hn : m.vars.keys.Nodup) {H : Heap} {cs : List Constraint} {info : Info} (hi : SetupInv m H cs info) (hk : KeyInv m cs info)
    (p : Policy) (shuffle : List Name → List Name) : PolicyOrder p shuffle m cs (orderVars p shuffle m info) := by
  have hsize : ∀ x, m.domSize x = m.size x := fun x => by unfold Model.domSize Model.size; rw [pureVars_get? hn]
  unfold PolicyOrder orderVars
  simp only [hi.keys, pureVars_declared]
  cases p with
  | ordered => rfl
  | reversed => rfl
  | random => rfl
  | groups => exact sortedAs_reverse (weak_groupsLt info) (groupsLt_iff hn hk) _
  | minBound => exact sortedAs_pySorted (weak_key _) (fun x y => by simp [hsize]) _
  | maxBound => exact sortedAs_pySorted (weak_key' _) (fun x y => by simp [hsize]) _
  | minConstraint => exact sortedAs_pySorted (weak_key _) (fun x y => by simp [conCount_eq hi]) _
  | maxConstraint => exact sortedAs_pySorted (weak_key' _) (fun x y => by simp [conCount_eq hi]) _

end Satisfy
