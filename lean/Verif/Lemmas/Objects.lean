import Verif.Objects
import Verif.Lemmas.Dict
import Mathlib.Data.List.Nodup
/-!
# Dict objects: the search with references goes as the search with values
-/

namespace Satisfy

theorem acceptable_set (h : Heap) (info : Info) (x : Name) (σ : Subst) (v w : Int) :
    acceptable h info x (σ.set x v) w = acceptable h info x σ w := by
  unfold acceptable
  rw [Dict.set_set]

theorem candLoop_set (h : Heap) (info : Info) (x : Name) (σ : Subst) (v : Int) (vs : List Int) :
    candLoop h info x (σ.set x v) vs = candLoop h info x σ vs := by
  induction vs with
  | nil => rfl
  | cons w vs ih => simp only [candLoop, acceptable_set, ih]

/-- What a piece of the search leaves of the dicts: it only ever writes to `r`, there only under `x`. -/
structure OnlyAt (r : Nat) (x : Name) (d d' : Dicts) : Prop where
  next : d'.next = d.next
  other : ∀ i, i ≠ r → d'.cell i = d.cell i
  at_ : ∀ w : Int, (d'.cell r).set x w = (d.cell r).set x w

theorem OnlyAt.refl (r : Nat) (x : Name) (d : Dicts) : OnlyAt r x d d := ⟨rfl, fun _ _ => rfl, fun _ => rfl⟩

theorem OnlyAt.setItem (r : Nat) (x : Name) (v : Int) (d : Dicts) : OnlyAt r x d (d.setItem r x v) := by
  refine ⟨rfl, fun i hi => ?_, fun w => ?_⟩
  · simp [Dicts.setItem, Dicts.write, hi]
  · simp [Dicts.setItem, Dicts.write, Dict.set_set]

theorem OnlyAt.trans {r : Nat} {x : Name} {a b c : Dicts} (h : OnlyAt r x a b) (h' : OnlyAt r x b c) : OnlyAt r x a c :=
  ⟨h'.next.trans h.next, fun i hi => (h'.other i hi).trans (h.other i hi), fun w => (h'.at_ w).trans (h.at_ w)⟩

@[simp] theorem Dicts.setItem_cell (d : Dicts) (r : Nat) (x : Name) (v : Int) : (d.setItem r x v).cell r = (d.cell r).set x v := by
  simp [Dicts.setItem, Dicts.write]

theorem acceptable_now (h : Heap) (info : Info) (x : Name) (σ : Subst) (v : Int) : acceptable h info x σ v = acceptableNow h info x (σ.set x v) v := rfl

theorem oCandLoop_eq (h : Heap) (info : Info) (x : Name) (r : Nat) (vs : List Int) (d : Dicts) :
    (oCandLoop h info x r vs d).2 = candLoop h info x (d.cell r) vs ∧ OnlyAt r x d (oCandLoop h info x r vs d).1 := by
  induction vs generalizing d with
  | nil => exact ⟨rfl, .refl r x d⟩
  | cons v vs ih =>
    have hd := OnlyAt.setItem r x v d
    obtain ⟨i1, i2⟩ := ih (d.setItem r x v)
    rw [Dicts.setItem_cell, candLoop_set] at i1
    simp only [oCandLoop, candLoop, Dicts.setItem_cell, acceptable_now]
    rw [← i1]
    cases ha : acceptableNow h info x ((d.cell r).set x v) v with
    | error e => exact ⟨rfl, hd⟩
    | ok ok =>
      rcases hl : oCandLoop h info x r vs (d.setItem r x v) with ⟨d', res⟩
      rw [hl] at i2
      cases res with
      | error e => exact ⟨rfl, hd.trans i2⟩
      | ok rest => exact ⟨rfl, hd.trans i2⟩

theorem oCandidates_eq (info : Info) (h : Heap) (x : Name) (r : Nat) (d : Dicts) :
    (oCandidates info h x r d).2 = candidates info h x (d.cell r) ∧ OnlyAt r x d (oCandidates info h x r d).1 := by
  unfold oCandidates candidates
  cases info.vars.get? x with
  | none => exact ⟨rfl, .refl r x d⟩
  | some dom => exact oCandLoop_eq h info x r dom d

/-- The stack with the contents of its dicts. -/
def Dicts.look (d : Dicts) (l : List (List Name × Nat)) : List (List Name × Subst) := l.map (fun p => (p.1, d.cell p.2))

def OSearch.view (d : Dicts) (s : OSearch) : Search := ⟨d.look s.stack, s.domains⟩

def OEv.view (d : Dicts) : OEv → Ev
  | .silent s => .silent (s.view d)
  | .yield r s => .yield (d.cell r) (s.view d)
  | .done => .done
  | .raised e => .raised e

/-- Where the references of what a pass leaves come from. -/
def OEv.refs (n n' : Nat) (s : OSearch) : OEv → Prop
  | .silent s' => ∀ p ∈ s'.stack, p ∈ s.stack ∨ (n ≤ p.2 ∧ p.2 < n')
  | .yield r s' => (n ≤ r ∧ r < n') ∧ ∀ p ∈ s'.stack, p ∈ s.stack
  | _ => True

/-- A pass leaves the dicts that were there as they were. -/
structure Keeps (d d' : Dicts) : Prop where
  le : d.next ≤ d'.next
  cell : ∀ i, i < d.next → d'.cell i = d.cell i

theorem Keeps.refl (d : Dicts) : Keeps d d := ⟨Nat.le_refl _, fun _ _ => rfl⟩

theorem Keeps.copy (d : Dicts) (r : Nat) : Keeps d (d.copy r) := by
  refine ⟨Nat.le_succ _, fun i hi => ?_⟩
  simp [Dicts.copy, Dicts.make, Nat.ne_of_lt hi]

theorem Keeps.onlyAt {x : Name} {d a b : Dicts} (h : Keeps d a) (h' : OnlyAt d.next x a b) : Keeps d b :=
  ⟨by rw [h'.next]; exact h.le, fun i hi => (h'.other i (Nat.ne_of_lt hi)).trans (h.cell i hi)⟩

theorem Keeps.look {d d' : Dicts} (h : Keeps d d') {l : List (List Name × Nat)} (hl : ∀ p ∈ l, p.2 < d.next) : d'.look l = d.look l := by
  apply List.map_congr_left
  intro p hp
  rw [h.cell _ (hl p hp)]

theorem copy_next (d : Dicts) (r : Nat) : (d.copy r).next = d.next + 1 := rfl

theorem copy_cell (d : Dicts) (r : Nat) : (d.copy r).cell d.next = d.cell r := by simp [Dicts.copy, Dicts.make]

theorem take_eq (s : OSearch) (x : Name) (rest : List Name) (v : Int) (vs : List Int) (d a : Dicts) (σ : Subst)
    (hs : ∀ p ∈ s.stack, p.2 < d.next) (hk : Keeps d a) (hn : a.next = d.next + 1) (hσ : ∀ w : Int, (a.cell d.next).set x w = σ.set x w) :
    (s.take x rest d.next v vs a).2.view (s.take x rest d.next v vs a).1 = (s.view d).take x rest σ v vs ∧
    (s.take x rest d.next v vs a).2.refs d.next (s.take x rest d.next v vs a).1.next s ∧
    Keeps d (s.take x rest d.next v vs a).1 := by
  have hk' : Keeps d (a.setItem d.next x v) := hk.onlyAt (.setItem _ x v a)
  have hl := hk'.look hs
  cases rest with
  | nil =>
    refine ⟨?_, ⟨⟨Nat.le_refl _, ?_⟩, fun p hp => hp⟩, hk'⟩
    · simp only [OSearch.take, OEv.view, Search.take, OSearch.view, Dicts.setItem_cell, hσ, hl]
    · show d.next < a.next
      omega
  | cons y ys =>
    refine ⟨?_, fun p hp => ?_, hk'⟩
    · simp only [OSearch.take, OEv.view, Search.take, OSearch.view]
      rw [← hl]
      simp only [Dicts.look, List.map_cons, Dicts.setItem_cell, hσ]
    · rcases List.mem_cons.1 hp with rfl | hp
      · right
        refine ⟨Nat.le_refl _, ?_⟩
        show d.next < a.next
        omega
      · exact .inl hp

theorem step_eq (info : Info) (h : Heap) (s : OSearch) (d : Dicts) (hs : ∀ p ∈ s.stack, p.2 < d.next) :
    (s.step info h d).2.view (s.step info h d).1 = (s.view d).step (candidates info h) ∧
    (s.step info h d).2.refs d.next (s.step info h d).1.next s ∧ Keeps d (s.step info h d).1 := by
  rcases s with ⟨stack, doms⟩
  rcases stack with _ | ⟨⟨vars, r⟩, stack'⟩
  · exact ⟨rfl, trivial, .refl d⟩
  rcases vars with _ | ⟨x, rest⟩
  · exact ⟨rfl, trivial, .refl d⟩
  have hkc := Keeps.copy d r
  have hs' : ∀ p ∈ stack', p.2 < d.next := fun p hp => hs p (List.mem_cons_of_mem _ hp)
  cases hg : doms.get? x with
  | none =>
    obtain ⟨c1, c2⟩ := oCandidates_eq info h x d.next (d.copy r)
    rw [copy_cell] at c1
    rcases hc : oCandidates info h x d.next (d.copy r) with ⟨a, res⟩
    rw [hc] at c1 c2
    simp only at c1 c2
    have hka := hkc.onlyAt c2
    cases res with
    | error e =>
      simp only [OSearch.step, hg, hc, Search.step, OSearch.view, Dicts.look, List.map_cons, ← c1]
      exact ⟨rfl, trivial, hka⟩
    | ok vs =>
      cases vs with
      | nil =>
        simp only [OSearch.step, hg, hc, Search.step, OSearch.view, Dicts.look, List.map_cons, ← c1]
        refine ⟨?_, fun p hp => .inl (List.mem_cons_of_mem _ hp), hka⟩
        simp only [OEv.view, OSearch.view]
        rw [hka.look hs']
        rfl
      | cons v vs =>
        have := take_eq ⟨(x :: rest, r) :: stack', doms⟩ x rest v vs d a (d.cell r) hs hka (by rw [c2.next]; rfl)
          (fun w => by rw [c2.at_ w, copy_cell])
        simp only [OSearch.step, hg, hc, Search.step, OSearch.view, Dicts.look, List.map_cons, ← c1]
        exact this
  | some l =>
    cases l with
    | nil =>
      simp only [OSearch.step, hg, Search.step, OSearch.view, Dicts.look, List.map_cons]
      refine ⟨?_, fun p hp => .inl (List.mem_cons_of_mem _ hp), hkc⟩
      simp only [OEv.view, OSearch.view]
      rw [hkc.look hs']
      rfl
    | cons v vs =>
      have := take_eq ⟨(x :: rest, r) :: stack', doms⟩ x rest v vs d (d.copy r) (d.cell r) hs hkc rfl (fun w => by rw [copy_cell])
      simp only [OSearch.step, hg, Search.step, OSearch.view, Dicts.look, List.map_cons]
      exact this

/-! ### The generator -/

def OPhase.view (d : Dicts) : OPhase → Phase
  | .running => .running
  | .suspended r => .suspended (d.cell r)
  | .finished => .finished
  | .raised e => .raised e

/-- The generator as one with values. -/
def OGen.view (d : Dicts) (g : OGen) : Gen := ⟨g.search.view d, g.timer, g.tick, g.num, g.interrupt, g.phase.view d⟩

/-- The references on the stack are to dicts which exist and which the caller does not have. -/
structure Private (s : OSys) : Prop where
  below : ∀ p ∈ s.gen.search.stack, p.2 < s.dicts.next
  mine : ∀ p ∈ s.gen.search.stack, p.2 ∉ s.given
  made : ∀ r ∈ s.given, r < s.dicts.next
  nodup : s.given.Nodup
  here : ∀ r, s.gen.phase = .suspended r → r ∈ s.given

/-- What the caller's dicts contain. -/
def OSys.contents (s : OSys) : List Subst := s.given.map s.dicts.cell

/-- Everything but the caller's dicts is as it was. -/
structure SameSearch (s s' : OSys) : Prop where
  gen : s'.gen = s.gen
  look : s'.dicts.look s.gen.search.stack = s.dicts.look s.gen.search.stack

theorem apply_none {s : OSys} {i : Nat} (h : s.given[i]? = none) (σ : Subst) : (Edit.change i σ).apply s = s := by
  simp only [Edit.apply, h]

theorem apply_some {s : OSys} {i r : Nat} (h : s.given[i]? = some r) (σ : Subst) :
    (Edit.change i σ).apply s = { s with dicts := s.dicts.write r σ } := by
  simp only [Edit.apply, h]

theorem apply_private {s : OSys} (h : Private s) (e : Edit) : Private (e.apply s) ∧ SameSearch s (e.apply s) := by
  cases e with
  | change i σ =>
    cases hi : s.given[i]? with
    | none =>
      rw [apply_none hi]
      exact ⟨h, rfl, rfl⟩
    | some r =>
      rw [apply_some hi]
      have hr : r ∈ s.given := List.mem_of_getElem? hi
      refine ⟨⟨h.below, h.mine, h.made, h.nodup, h.here⟩, rfl, ?_⟩
      apply List.map_congr_left
      intro p hp
      have : p.2 ≠ r := fun he => h.mine p hp (he ▸ hr)
      simp [Dicts.write, this]
  | make σ =>
    refine ⟨⟨fun p hp => Nat.lt_succ_of_lt (h.below p hp), fun p hp hm => ?_, fun r hr => ?_, ?_, fun r hr => ?_⟩, rfl, ?_⟩
    · rcases List.mem_append.1 hm with hm | hm
      · exact h.mine p hp hm
      · exact Nat.ne_of_lt (h.below p hp) (List.mem_singleton.1 hm)
    · rcases List.mem_append.1 hr with hm | hm
      · exact Nat.lt_succ_of_lt (h.made r hm)
      · rw [List.mem_singleton.1 hm]
        exact Nat.lt_succ_self _
    · refine List.nodup_append.2 ⟨h.nodup, List.nodup_singleton _, fun a ha b hb => ?_⟩
      rw [List.mem_singleton.1 hb]
      exact Nat.ne_of_lt (h.made a ha)
    · exact List.mem_append_left _ (h.here r hr)
    · apply List.map_congr_left
      intro p hp
      simp [Edit.apply, Dicts.make, Nat.ne_of_lt (h.below p hp)]

theorem SameSearch.trans {a b c : OSys} (h : SameSearch a b) (h' : SameSearch b c) : SameSearch a c :=
  ⟨h'.gen.trans h.gen, by rw [← h.gen, h'.look, h.gen, h.look]⟩

theorem edit_private (es : List Edit) {s : OSys} (h : Private s) : Private (s.edit es) ∧ SameSearch s (s.edit es) := by
  induction es generalizing s with
  | nil => exact ⟨h, rfl, rfl⟩
  | cons e es ih =>
    obtain ⟨h1, h2⟩ := apply_private h e
    obtain ⟨h3, h4⟩ := ih h1
    exact ⟨h3, h2.trans h4⟩

theorem SameSearch.view {s s' : OSys} (h : SameSearch s s') (hp : ∀ r, s.gen.phase ≠ .suspended r) : s'.gen.view s'.dicts = s.gen.view s.dicts := by
  unfold OGen.view OSearch.view
  rw [h.gen, h.look]
  congr 1
  cases hph : s.gen.phase with
  | suspended r => exact absurd hph (hp r)
  | _ => rfl

/-- The view of a generator whose phase is not looked at. -/
theorem SameSearch.search {s s' : OSys} (h : SameSearch s s') : s'.gen.search.view s'.dicts = s.gen.search.view s.dicts := by
  unfold OSearch.view
  rw [h.gen, h.look]

/-- After one pass of the loop, the caller getting the dict that is handed out. -/
def OSys.after (s : OSys) (r : Dicts × OGen) : OSys :=
  ⟨r.2, r.1, match r.2.phase with | .suspended r => s.given ++ [r] | _ => s.given⟩

/-- The dict handed out. -/
def OPhase.handed : OPhase → List Nat
  | .suspended r => [r]
  | _ => []

theorem after_given (s : OSys) (r : Dicts × OGen) : (s.after r).given = s.given ++ r.2.phase.handed := by
  unfold OSys.after OPhase.handed
  cases r.2.phase <;> simp

theorem Private.silent {s : OSys} (h : Private s) {d : Dicts} {g : OGen} (hk : Keeps s.dicts d) (hp : ∀ r, g.phase ≠ .suspended r)
    (hr : ∀ p ∈ g.search.stack, p ∈ s.gen.search.stack ∨ (s.dicts.next ≤ p.2 ∧ p.2 < d.next)) : Private (s.after (d, g)) := by
  have hg : (s.after (d, g)).given = s.given := by
    rw [after_given]
    cases hph : g.phase with
    | suspended r => exact absurd hph (hp r)
    | _ => simp [OPhase.handed]
  refine ⟨fun p hpp => ?_, fun p hpp => ?_, fun r hrr => ?_, by rw [hg]; exact h.nodup, fun r hrr => absurd hrr (hp r)⟩
  · rcases hr p hpp with h1 | h1
    · exact Nat.lt_of_lt_of_le (h.below p h1) hk.le
    · exact h1.2
  · rw [hg]
    rcases hr p hpp with h1 | h1
    · exact h.mine p h1
    · intro hm
      exact absurd (h.made _ hm) (by omega)
  · rw [hg] at hrr
    exact Nat.lt_of_lt_of_le (h.made r hrr) hk.le

theorem Private.yield {s : OSys} (h : Private s) {d : Dicts} {g : OGen} {q : Nat} (hk : Keeps s.dicts d) (hp : g.phase = .suspended q)
    (hq : s.dicts.next ≤ q ∧ q < d.next) (hr : ∀ p ∈ g.search.stack, p ∈ s.gen.search.stack) : Private (s.after (d, g)) := by
  have hg : (s.after (d, g)).given = s.given ++ [q] := by
    rw [after_given]
    simp only [hp]
    rfl
  refine ⟨fun p hpp => Nat.lt_of_lt_of_le (h.below p (hr p hpp)) hk.le, fun p hpp hm => ?_, fun r hrr => ?_, ?_, fun r hrr => ?_⟩
  · rw [hg] at hm
    rcases List.mem_append.1 hm with hm | hm
    · exact h.mine p (hr p hpp) hm
    · have := h.below p (hr p hpp)
      rw [List.mem_singleton.1 hm] at this
      omega
  · rw [hg] at hrr
    rcases List.mem_append.1 hrr with hm | hm
    · exact Nat.lt_of_lt_of_le (h.made r hm) hk.le
    · rw [List.mem_singleton.1 hm]
      exact hq.2
  · rw [hg]
    refine List.nodup_append.2 ⟨h.nodup, List.nodup_singleton _, fun a ha b hb => ?_⟩
    rw [List.mem_singleton.1 hb]
    have := h.made a ha
    omega
  · rw [hg]
    have : OPhase.suspended q = .suspended r := hp.symm.trans hrr
    injection this with this
    simp [this]

theorem look_isEmpty (d : Dicts) (l : List (List Name × Nat)) : (d.look l).isEmpty = l.isEmpty := by
  cases l <;> rfl

/-- What one pass of the loop with references does, compared to the one with values. -/
structure PassOk (cfg : RunCfg) (info : Info) (h : Heap) (s : OSys) (r : Dicts × OGen) : Prop where
  view : r.2.view r.1 = (s.gen.view s.dicts).loop cfg (candidates info h)
  keeps : Keeps s.dicts r.1
  priv : Private (s.after r)

/-- A pass that changes neither stack nor dicts. -/
theorem PassOk.still {cfg : RunCfg} {info : Info} {h : Heap} {s : OSys} (hp : Private s) (g : OGen) (hph : ∀ r, g.phase ≠ .suspended r)
    (hs : g.search = s.gen.search) (hv : g.view s.dicts = (s.gen.view s.dicts).loop cfg (candidates info h)) :
    PassOk cfg info h s (s.dicts, g) :=
  ⟨hv, .refl _, hp.silent (.refl _) hph (fun p hpp => .inl (hs ▸ hpp))⟩

theorem pass_ok (cfg : RunCfg) (info : Info) (h : Heap) (s : OSys) (hp : Private s) (hrun : s.gen.phase = .running) :
    PassOk cfg info h s (s.gen.loop cfg info h s.dicts) := by
  rcases s with ⟨⟨search, timer, tick, num, interrupt, phase⟩, d, given⟩
  simp only at hrun
  subst hrun
  by_cases he : search.stack.isEmpty = true
  · have he' : ((search.view d).stack.isEmpty) = true := by
      show (d.look search.stack).isEmpty = true
      rw [look_isEmpty, he]
    have hl : OGen.loop cfg info h ⟨search, timer, tick, num, interrupt, .running⟩ d = (d, ⟨search, timer, tick, num, interrupt, .finished⟩) := by
      simp [OGen.loop, he]
    simp only [hl]
    refine PassOk.still hp _ (fun r hr => by cases hr) rfl ?_
    simp [OGen.view, OPhase.view, Gen.loop, he']
  · have he' : ¬ ((search.view d).stack.isEmpty) = true := by
      show ¬ (d.look search.stack).isEmpty = true
      rw [look_isEmpty]
      exact he
    have hto : Gen.timedOut cfg ⟨search.view d, timer, tick, num, interrupt, .running⟩ = OGen.timedOut cfg ⟨search, timer, tick, num, interrupt, .running⟩ := rfl
    by_cases ht : OGen.timedOut cfg ⟨search, timer, tick, num, interrupt, .running⟩ = true
    · have hl : OGen.loop cfg info h ⟨search, timer, tick, num, interrupt, .running⟩ d =
          (d, ⟨search, timer, tick + 1, num, some .timeout, .finished⟩) := by
        simp [OGen.loop, he, ht]
      simp only [hl]
      refine PassOk.still hp _ (fun r hr => by cases hr) rfl ?_
      simp [OGen.view, OPhase.view, Gen.loop, he', hto, ht]
    · have h3 := step_eq info h search d hp.below
      generalize hT : (if cfg.timeout.isSome then tick + 1 else tick) = T
      have hg : (if cfg.timeout.isSome = true then (⟨search, timer, tick + 1, num, interrupt, .running⟩ : OGen) else ⟨search, timer, tick, num, interrupt, .running⟩) =
          ⟨search, timer, T, num, interrupt, .running⟩ := by
        rw [← hT]
        split <;> rfl
      have hg' : (if cfg.timeout.isSome = true then (⟨search.view d, timer, tick + 1, num, interrupt, .running⟩ : Gen) else ⟨search.view d, timer, tick, num, interrupt, .running⟩) =
          ⟨search.view d, timer, T, num, interrupt, .running⟩ := by
        rw [← hT]
        split <;> rfl
      rcases hst : search.step info h d with ⟨d', ev⟩
      rw [hst] at h3
      obtain ⟨h1, h2, hk⟩ := h3
      simp only at h1 h2 hk
      have hview : search.view d' = search.view d := by
        unfold OSearch.view
        rw [hk.look hp.below]
      cases ev with
      | done =>
        have hl : OGen.loop cfg info h ⟨search, timer, tick, num, interrupt, .running⟩ d = (d', ⟨search, timer, T, num, interrupt, .finished⟩) := by
          simp only [OGen.loop, he, ht, hg, hst]
          rfl
        simp only [hl]
        refine ⟨?_, hk, hp.silent hk (fun r hr => by cases hr) (fun p hpp => .inl hpp)⟩
        simp only [OGen.view, OPhase.view, Gen.loop, he', hto, ht, hg', ← h1, OEv.view, hview]
        rfl
      | raised e =>
        have hl : OGen.loop cfg info h ⟨search, timer, tick, num, interrupt, .running⟩ d = (d', ⟨search, timer, T, num, interrupt, .raised e⟩) := by
          simp only [OGen.loop, he, ht, hg, hst]
          rfl
        simp only [hl]
        refine ⟨?_, hk, hp.silent hk (fun r hr => by cases hr) (fun p hpp => .inl hpp)⟩
        simp only [OGen.view, OPhase.view, Gen.loop, he', hto, ht, hg', ← h1, OEv.view, hview]
        rfl
      | silent s' =>
        have hl : OGen.loop cfg info h ⟨search, timer, tick, num, interrupt, .running⟩ d = (d', ⟨s', timer, T, num, interrupt, .running⟩) := by
          simp only [OGen.loop, he, ht, hg, hst]
          rfl
        simp only [hl]
        refine ⟨?_, hk, hp.silent hk (fun r hr => by cases hr) h2⟩
        simp only [OGen.view, OPhase.view, Gen.loop, he', hto, ht, hg', ← h1, OEv.view]
        rfl
      | yield q s' =>
        cases htm : timer.doStop (cfg.clock T) with
        | error e =>
          have hl : OGen.loop cfg info h ⟨search, timer, tick, num, interrupt, .running⟩ d = (d', ⟨search, timer, T, num, interrupt, .raised e⟩) := by
            simp only [OGen.loop, he, ht, hg, hst, htm, OGen.withTimer]
            rfl
          simp only [hl]
          refine ⟨?_, hk, hp.silent hk (fun r hr => by cases hr) (fun p hpp => .inl hpp)⟩
          simp only [OGen.view, OPhase.view, Gen.loop, he', hto, ht, hg', ← h1, OEv.view, hview, htm, Gen.withTimer]
          rfl
        | ok t =>
          have hl : OGen.loop cfg info h ⟨search, timer, tick, num, interrupt, .running⟩ d = (d', ⟨s', t, T + 1, num + 1, interrupt, .suspended q⟩) := by
            simp only [OGen.loop, he, ht, hg, hst, htm, OGen.withTimer]
            rfl
          simp only [hl]
          refine ⟨?_, hk, hp.yield hk rfl h2.1 h2.2⟩
          simp only [OGen.view, OPhase.view, Gen.loop, he', hto, ht, hg', ← h1, OEv.view, htm, Gen.withTimer]
          rfl

theorem withTimer_view (d : Dicts) (g : OGen) (r : Res Timer) (k : OGen → OGen) (k' : Gen → Gen)
    (hk : ∀ t, (k { g with timer := t, tick := g.tick + 1 }).view d = k' { g.view d with timer := t, tick := g.tick + 1 }) :
    (g.withTimer r k).view d = (g.view d).withTimer r k' := by
  cases r with
  | ok t => exact hk t
  | error e => rfl

theorem oresume_eq (cfg : RunCfg) (g : OGen) : g.resume cfg = if (cfg.limit.any fun l => decide ((g.num : Int) ≥ l)) = true then
    g.withTimer (g.timer.abort (cfg.clock g.tick)) (fun g' => { g' with tick := g.tick, interrupt := some .limit, phase := .finished })
    else g.withTimer (g.timer.doStart (cfg.clock g.tick)) (fun g => { g with phase := .running }) := by
  unfold OGen.resume
  cases cfg.limit <;> rfl

theorem gresume_eq (cfg : RunCfg) (g : Gen) : g.resume cfg = if (cfg.limit.any fun l => decide ((g.num : Int) ≥ l)) = true then
    g.withTimer (g.timer.abort (cfg.clock g.tick)) (fun g' => { g' with tick := g.tick, interrupt := some .limit, phase := .finished })
    else g.withTimer (g.timer.doStart (cfg.clock g.tick)) (fun g => { g with phase := .running }) := by
  unfold Gen.resume
  cases cfg.limit <;> rfl

theorem resume_phase (cfg : RunCfg) (g : OGen) : (g.resume cfg).search = g.search ∧ ∀ r, (g.resume cfg).phase ≠ .suspended r := by
  rw [oresume_eq]
  split
  · cases hr : g.timer.abort (cfg.clock g.tick) <;> exact ⟨rfl, fun r h => by cases h⟩
  · cases hr : g.timer.doStart (cfg.clock g.tick) <;> exact ⟨rfl, fun r h => by cases h⟩

/-- Resumption forgets which dict was handed out. -/
theorem resume_view (cfg : RunCfg) (g : OGen) (d d₀ : Dicts) (hs : g.search.view d = g.search.view d₀) :
    (g.resume cfg).view d = (g.view d₀).resume cfg := by
  have hn : (g.view d₀).num = g.num := rfl
  have ht : (g.view d₀).timer = g.timer := rfl
  have hk : (g.view d₀).tick = g.tick := rfl
  rw [oresume_eq, gresume_eq, hn, ht, hk]
  by_cases hc : (cfg.limit.any fun l => decide ((g.num : Int) ≥ l)) = true
  · rw [if_pos hc, if_pos hc]
    cases hr : g.timer.abort (cfg.clock g.tick) with
    | ok t => simp only [OGen.withTimer, Gen.withTimer, OGen.view, OPhase.view, hs]
    | error e => simp only [OGen.withTimer, Gen.withTimer, OGen.view, OPhase.view, hs]
  · rw [if_neg hc, if_neg hc]
    cases hr : g.timer.doStart (cfg.clock g.tick) with
    | ok t => simp only [OGen.withTimer, Gen.withTimer, OGen.view, OPhase.view, hs]
    | error e => simp only [OGen.withTimer, Gen.withTimer, OGen.view, OPhase.view, hs]

/-- Changing only the phase, to one which is not `suspended`, and the like keeps the stack private. -/
theorem Private.setGen {s : OSys} (h : Private s) (g : OGen) (hs : g.search = s.gen.search) (hp : ∀ r, g.phase ≠ .suspended r) :
    Private { s with gen := g } :=
  ⟨by rw [show ({ s with gen := g } : OSys).gen.search = s.gen.search from hs]; exact h.below,
   by rw [show ({ s with gen := g } : OSys).gen.search = s.gen.search from hs]; exact h.mine, h.made, h.nodup, fun r hr => absurd hr (hp r)⟩

/-- The dict handed out in a step, if one is. -/
def OSys.newDict (s s' : OSys) : List Nat :=
  match s.gen.phase with
  | .running => s'.gen.phase.handed
  | _ => []

/-- What a step of the search with references does. -/
structure StepOk (cfg : RunCfg) (info : Info) (act : Heap → Subst → Res Heap) (es : List Edit) (s : OSys) (h : Heap) (r : OSys × Heap) : Prop where
  priv : Private r.1
  view : (r.1.gen.view r.1.dicts, r.2) = sysStep cfg (candidates info) act (s.gen.view s.dicts) h
  given : r.1.given = (s.edit es).given ++ s.newDict r.1
  old : (s.edit es).given.map r.1.dicts.cell = (s.edit es).contents

theorem oStep_ok (cfg : RunCfg) (info : Info) (act : Heap → Subst → Res Heap) (es : List Edit) (s : OSys) (h : Heap) (hp : Private s) :
    StepOk cfg info act es s h (oStep cfg info act es s h) := by
  obtain ⟨hp', hss⟩ := edit_private es hp
  cases hph : s.gen.phase with
  | running =>
    have hph' : (s.edit es).gen.phase = .running := by rw [hss.gen, hph]
    have ok := pass_ok cfg info h (s.edit es) hp' hph'
    have hstep : oStep cfg info act es s h = ((s.edit es).after ((s.edit es).gen.loop cfg info h (s.edit es).dicts), h) := by
      simp only [oStep, hph]
      rfl
    rw [hstep]
    refine ⟨ok.priv, ?_, ?_, ?_⟩
    · have hv : (s.gen.view s.dicts).phase = .running := by simp [OGen.view, OPhase.view, hph]
      simp only [sysStep, hv]
      rw [← hss.view (by rw [hph]; intro r hr; cases hr), ← ok.view]
      rfl
    · rw [after_given]
      simp only [OSys.newDict, hph]
      rfl
    · apply List.map_congr_left
      intro r hr
      exact ok.keeps.cell r (hp'.made r hr)
  | suspended q =>
    have hv : (s.gen.view s.dicts).phase = .suspended (s.dicts.cell q) := by simp [OGen.view, OPhase.view, hph]
    cases ha : act h (s.dicts.cell q) with
    | ok h' =>
      have hstep : oStep cfg info act es s h = ({ s.edit es with gen := (s.edit es).gen.resume cfg }, h') := by
        simp only [oStep, hph, ha]
      have hr := resume_phase cfg (s.edit es).gen
      rw [hstep]
      refine ⟨hp'.setGen _ hr.1 hr.2, ?_, ?_, rfl⟩
      · simp only [sysStep, hv, ha]
        have := resume_view cfg (s.edit es).gen (s.edit es).dicts s.dicts (by rw [hss.search, hss.gen])
        rw [this, hss.gen]
      · simp only [OSys.newDict, hph, List.append_nil]
    | error e =>
      have hstep : oStep cfg info act es s h = ({ s.edit es with gen := { (s.edit es).gen with phase := .raised e } }, h) := by
        simp only [oStep, hph, ha]
      rw [hstep]
      refine ⟨hp'.setGen _ rfl (fun r hr => by cases hr), ?_, ?_, rfl⟩
      · simp only [sysStep, hv, ha]
        have hv' := hss.search
        rw [hss.gen] at hv'
        simp only [OGen.view, OPhase.view, hss.gen, hv']
      · simp only [OSys.newDict, hph, List.append_nil]
  | finished =>
    have hv : (s.gen.view s.dicts).phase = .finished := by simp [OGen.view, OPhase.view, hph]
    have hstep : oStep cfg info act es s h = (s.edit es, h) := by simp only [oStep, hph]
    rw [hstep]
    refine ⟨hp', ?_, ?_, rfl⟩
    · simp only [sysStep, hv]
      rw [hss.view (by rw [hph]; intro r hr; cases hr)]
    · simp only [OSys.newDict, hph, List.append_nil]
  | raised e =>
    have hv : (s.gen.view s.dicts).phase = .raised e := by simp [OGen.view, OPhase.view, hph]
    have hstep : oStep cfg info act es s h = (s.edit es, h) := by simp only [oStep, hph]
    rw [hstep]
    refine ⟨hp', ?_, ?_, rfl⟩
    · simp only [sysStep, hv]
      rw [hss.view (by rw [hph]; intro r hr; cases hr)]
    · simp only [OSys.newDict, hph, List.append_nil]

theorem output_view (s : OSys) : s.output = (s.gen.view s.dicts).phase.output := by
  unfold OSys.output OGen.view OPhase.view Phase.output
  cases s.gen.phase <;> rfl

/-- A run with references goes as the run with values. -/
theorem oRun_eq (cfg : RunCfg) (info : Info) (act : Heap → Subst → Res Heap) (n : Nat) (es : Nat → List Edit) (s : OSys) (h : Heap) (hp : Private s) :
    Private (oRun cfg info act n es s h).2.1 ∧
    ((oRun cfg info act n es s h).1, (oRun cfg info act n es s h).2.1.gen.view (oRun cfg info act n es s h).2.1.dicts, (oRun cfg info act n es s h).2.2) =
      sysRun cfg (candidates info) act n (s.gen.view s.dicts) h := by
  induction n generalizing es s h with
  | zero => exact ⟨hp, rfl⟩
  | succ n ih =>
    have ok := oStep_ok cfg info act (es 0) s h hp
    obtain ⟨i1, i2⟩ := ih (fun k => es (k + 1)) _ (oStep cfg info act (es 0) s h).2 ok.priv
    simp only [oRun, sysRun]
    refine ⟨i1, ?_⟩
    rw [← ok.view, ← i2, output_view]
    simp only
    refine Prod.ext ?_ rfl
    simp only
    congr 1
    unfold OGen.view OPhase.view
    cases s.gen.phase <;> rfl

theorem oRun_succ (cfg : RunCfg) (info : Info) (act : Heap → Subst → Res Heap) (n : Nat) (es : Nat → List Edit) (s : OSys) (h : Heap) :
    (oRun cfg info act (n + 1) es s h).2 = oStep cfg info act (es n) (oRun cfg info act n es s h).2.1 (oRun cfg info act n es s h).2.2 := by
  induction n generalizing es s h with
  | zero => rfl
  | succ n ih =>
    have := ih (fun k => es (k + 1)) (oStep cfg info act (es 0) s h).1 (oStep cfg info act (es 0) s h).2
    exact this

theorem oRun_outs (cfg : RunCfg) (info : Info) (act : Heap → Subst → Res Heap) (n : Nat) (es : Nat → List Edit) (s : OSys) (h : Heap) :
    (oRun cfg info act (n + 1) es s h).1 = (oRun cfg info act n es s h).1 ++
      ((oRun cfg info act n es s h).2.1.newDict (oRun cfg info act (n + 1) es s h).2.1).map (oRun cfg info act (n + 1) es s h).2.1.dicts.cell := by
  induction n generalizing es s h with
  | zero =>
    simp only [oRun, OSys.newDict, OSys.output, OPhase.handed]
    cases s.gen.phase <;> cases (oStep cfg info act (es 0) s h).1.gen.phase <;> rfl
  | succ n ih =>
    have := ih (fun k => es (k + 1)) (oStep cfg info act (es 0) s h).1 (oStep cfg info act (es 0) s h).2
    rw [oRun]
    simp only
    rw [this, ← List.append_assoc]
    rfl

/-! ### The whole iteration -/

theorem oStart_eq (a : SolveArgs) (m : Model) (h : Heap) (d : Dicts) (given : List Nat) (hg : ∀ r ∈ given, r < d.next) (hn : given.Nodup) :
    Private (oStart a m h d given).2.2 ∧
    ((oStart a m h d given).1, (oStart a m h d given).2.1, (oStart a m h d given).2.2.gen.view (oStart a m h d given).2.2.dicts) = startSolve a m h := by
  have idle : ∀ ph : OPhase, (∀ r, ph ≠ .suspended r) → Private ⟨.idle ph, d, given⟩ := fun ph hph =>
    ⟨fun p hp => absurd hp List.not_mem_nil, fun p hp => absurd hp List.not_mem_nil, hg, hn, fun r hr => absurd hr (hph r)⟩
  unfold oStart startSolve
  by_cases hs : (!m.solvable) = true
  · rw [if_pos hs, if_pos hs]
    exact ⟨idle _ (fun r hr => by cases hr), rfl⟩
  · rw [if_neg hs, if_neg hs]
    rcases hst : setup a.solver.compile m a.adds h with ⟨h', res⟩
    cases res with
    | error e => exact ⟨idle _ (fun r hr => by cases hr), rfl⟩
    | ok info =>
      simp only
      cases ho : orderVars a.solver.policy a.shuffle m info with
      | nil => exact ⟨idle _ (fun r hr => by cases hr), rfl⟩
      | cons x xs =>
        cases ht : Timer.new.doStart (a.clock 0) with
        | error e =>
          refine ⟨⟨fun p hp => absurd hp List.not_mem_nil, fun p hp => absurd hp List.not_mem_nil,
            fun r hr => Nat.lt_succ_of_lt (hg r hr), hn, fun r hr => by cases hr⟩, rfl⟩
        | ok t =>
          refine ⟨⟨fun p hp => ?_, fun p hp hm => ?_, fun r hr => Nat.lt_succ_of_lt (hg r hr), hn, fun r hr => by cases hr⟩, ?_⟩
          · rw [List.mem_singleton.1 hp]
            exact Nat.lt_succ_self _
          · rw [List.mem_singleton.1 hp] at hm
            exact Nat.lt_irrefl _ (hg _ hm)
          · simp [OGen.withTimer, Gen.withTimer, OGen.view, OSearch.view, OPhase.view, OGen.idle, Gen.idle, Dicts.look, Dicts.make]

theorem oSolveRun_eq (a : SolveArgs) (m : Model) (act : Heap → Subst → Res Heap) (es : Nat → List Edit) (d : Dicts) (given : List Nat) (n : Nat) (h : Heap)
    (hg : ∀ r ∈ given, r < d.next) (hn : given.Nodup) :
    Private (oSolveRun a m act es d given n h).2.1 ∧
    ((oSolveRun a m act es d given n h).1, (oSolveRun a m act es d given n h).2.1.gen.view (oSolveRun a m act es d given n h).2.1.dicts,
      (oSolveRun a m act es d given n h).2.2) = solveRun a m act n h := by
  obtain ⟨h1, h2⟩ := oStart_eq a m h d given hg hn
  unfold oSolveRun solveRun
  rw [← h2]
  exact oRun_eq a.cfg _ act n es _ _ h1

/-- What the caller's own changes make of the contents of its dicts. -/
def Edit.on (l : List Subst) : Edit → List Subst
  | .change i σ => l.set i σ
  | .make σ => l ++ [σ]

theorem apply_contents {s : OSys} (h : Private s) (e : Edit) : (e.apply s).contents = Edit.on s.contents e := by
  cases e with
  | change i σ =>
    cases hi : s.given[i]? with
    | none =>
      rw [apply_none hi]
      simp only [Edit.on, OSys.contents]
      have : s.given.length ≤ i := by simpa using hi
      rw [List.set_eq_of_length_le (by simpa using this)]
    | some r =>
      rw [apply_some hi]
      simp only [Edit.on, OSys.contents]
      obtain ⟨hlt, hr⟩ := List.getElem?_eq_some_iff.1 hi
      apply List.ext_getElem (by simp)
      intro j h1 h2
      simp only [List.getElem_map, Dicts.write, List.getElem_set]
      have hj : j < s.given.length := by simpa using h1
      by_cases hij : i = j
      · subst hij
        simp [hr]
      · have : s.given[j] ≠ r := by
          intro he
          apply hij
          exact ((h.nodup.getElem_inj_iff (hi := hlt) (hj := hj)).1 (hr.trans he.symm))
        simp [this, hij]
  | make σ =>
    simp only [Edit.apply, Edit.on, OSys.contents, List.map_append, List.map_cons, List.map_nil]
    congr 1
    · apply List.map_congr_left
      intro r hr
      simp [Dicts.make, Nat.ne_of_lt (h.made r hr)]
    · simp [Dicts.make]

theorem edit_contents (es : List Edit) {s : OSys} (h : Private s) : (s.edit es).contents = es.foldl Edit.on s.contents := by
  induction es generalizing s with
  | nil => rfl
  | cons e es ih =>
    have := ih (apply_private h e).1
    rw [apply_contents h e] at this
    exact this

end Satisfy
