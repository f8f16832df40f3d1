import Verif.Lemmas.Dfs
import Verif.Lemmas.Constraint
/-! What `_setup` computes, and what an accepted value means. -/

namespace Satisfy

/-! ## Compilation -/

/-- The function stored for `c` is the one for the current parameter values. -/
def FnNow (h : Heap) (c : Constraint) : Prop := ∀ e, c.kind = .expr e → h.fns c.id = some (asFunction h.params e)

@[simp] theorem compile_params (h : Heap) (c : Constraint) : (c.compile h).params = h.params := by
  unfold Constraint.compile; split <;> rfl

theorem compile_now (h : Heap) (c : Constraint) : FnNow (c.compile h) c := by
  intro e he
  simp [Constraint.compile, he]

theorem compile_keep {h : Heap} {c c' : Constraint} (hn : FnNow h c) (hs : c.id = c'.id → c = c') :
    FnNow (c'.compile h) c := by
  by_cases hid : c.id = c'.id
  · rw [hs hid]; exact compile_now _ _
  · intro e he
    have := hn e he
    unfold Constraint.compile
    split
    · simp [hid, this]
    · exact this

theorem compile_other (h : Heap) {c c' : Constraint} (hid : c.id ≠ c'.id) : (c'.compile h).fns c.id = h.fns c.id := by
  unfold Constraint.compile
  split
  · simp [hid]
  · rfl

theorem evaluate_of_now {h h' : Heap} {c : Constraint} (h1 : FnNow h c) (h2 : FnNow h' c) (hp : h.params = h'.params)
    (σ : Subst) : c.evaluate h σ = c.evaluate h' σ := by
  obtain ⟨i, k⟩ := c
  cases k with
  | const b => rfl
  | allDiff ns => rfl
  | expr e => simp only [Constraint.evaluate, h1 e rfl, h2 e rfl, hp]

theorem evaluate_of_same {h h' : Heap} {c : Constraint} (hf : h.fns c.id = h'.fns c.id) (hp : h.params = h'.params)
    (σ : Subst) : c.evaluate h σ = c.evaluate h' σ := by
  obtain ⟨i, k⟩ := c
  cases k with
  | const b => rfl
  | allDiff ns => rfl
  | expr e => simp only [Constraint.evaluate]; simp only at hf; rw [hf, hp]

theorem fnOk_of_now {h : Heap} {c : Constraint} (hn : FnNow h c) : FnOk h c := by
  intro e f he hf
  rw [hn e he] at hf
  cases hf
  exact ⟨_, rfl⟩

/-- The effect of `_setup` on the heap: compile all constraints, or nothing. -/
def compileAll (comp : Bool) (cs : List Constraint) (h : Heap) : Heap :=
  if comp then cs.foldl (fun h c => c.compile h) h else h

theorem compileAll_append (comp : Bool) (cs cs' : List Constraint) (h : Heap) :
    compileAll comp (cs ++ cs') h = compileAll comp cs' (compileAll comp cs h) := by
  cases comp <;> simp [compileAll]

@[simp] theorem compileAll_params (comp : Bool) (cs : List Constraint) (h : Heap) :
    (compileAll comp cs h).params = h.params := by
  cases comp
  · rfl
  · simp only [compileAll, if_true]
    induction cs generalizing h with
    | nil => rfl
    | cons c cs ih => simp [ih]

theorem compileAll_keep {cs : List Constraint} {h : Heap} {c : Constraint} (hn : FnNow h c)
    (hs : ∀ c' ∈ cs, c.id = c'.id → c = c') : FnNow (compileAll true cs h) c := by
  induction cs generalizing h with
  | nil => exact hn
  | cons c' cs ih =>
    exact ih (compile_keep hn (hs c' (by simp))) (fun c'' hc'' => hs c'' (by simp [hc'']))

theorem compileAll_now {cs : List Constraint} {h : Heap} (hs : SameIds cs) :
    ∀ c ∈ cs, FnNow (compileAll true cs h) c := by
  intro c hc
  obtain ⟨pre, post, rfl⟩ := List.append_of_mem hc
  rw [compileAll_append]
  show FnNow (compileAll true post (c.compile (compileAll true pre h))) c
  exact compileAll_keep (compile_now _ _) (fun c' hc' hid => hs c hc c' (by simp [hc']) hid)

theorem compileAll_other {cs : List Constraint} {h : Heap} (comp : Bool) {c : Constraint} (hc : ∀ c' ∈ cs, c.id ≠ c'.id) :
    (compileAll comp cs h).fns c.id = h.fns c.id := by
  cases comp
  · rfl
  · simp only [compileAll, if_true]
    induction cs generalizing h with
    | nil => rfl
    | cons c' cs ih =>
      simp only [List.foldl_cons]
      rw [ih (fun c'' hc'' => hc c'' (by simp [hc'']))]
      exact compile_other _ (hc c' (by simp))

theorem compileAll_fnOk {cs : List Constraint} {h : Heap} (comp : Bool) (hs : SameIds cs) (hf : ∀ c ∈ cs, FnOk h c) :
    ∀ c ∈ cs, FnOk (compileAll comp cs h) c := by
  intro c hc
  cases comp
  · exact hf c hc
  · exact fnOk_of_now (compileAll_now hs c hc)

/-! ## The domains of the model -/

theorem mem_pureVars_keys {m : Model} {x : Name} (hx : x ∈ m.pureVars.keys) : x ∈ m.vars.keys := by
  simp only [Dict.keys, Model.pureVars, List.mem_map, List.mem_filterMap] at hx ⊢
  obtain ⟨p, ⟨q, hq, he⟩, rfl⟩ := hx
  cases hd : q.2.domain with
  | none => simp [hd] at he
  | some d => simp [hd] at he; exact ⟨q, hq, by rw [← he]⟩

theorem pureVars_nodup {m : Model} (hn : m.vars.keys.Nodup) : m.pureVars.keys.Nodup := by
  obtain ⟨vars, cs, s⟩ := m
  simp only [Model.pureVars] at *
  induction vars with
  | nil => simp [Dict.keys]
  | cons p vars ih =>
    simp only [Dict.keys, List.map_cons, List.nodup_cons] at hn
    have ih := ih hn.2
    rw [List.filterMap_cons]
    cases hd : p.2.domain with
    | none => simpa [hd] using ih
    | some d =>
      simp only [Option.map_some, Dict.keys, List.map_cons, List.nodup_cons]
      refine ⟨?_, ih⟩
      intro hm
      exact hn.1 (mem_pureVars_keys (m := ⟨vars, cs, s⟩) hm)

theorem pureVars_get? {m : Model} (hn : m.vars.keys.Nodup) (x : Name) : m.pureVars.get? x = m.domain? x := by
  obtain ⟨vars, cs, s⟩ := m
  simp only [Model.pureVars, Model.domain?] at *
  induction vars with
  | nil => rfl
  | cons p vars ih =>
    simp only [Dict.keys, List.map_cons, List.nodup_cons] at hn
    have ih := ih hn.2
    rw [List.filterMap_cons]
    by_cases hx : p.1 = x
    · simp only [Dict.get?, hx, if_true, Option.bind_some]
      cases hd : p.2.domain with
      | some d => simp [Dict.get?]
      | none =>
        simp only [Option.map_none]
        rw [ih]
        have : Dict.get? vars x = none := (Dict.get?_eq_none_iff _ _).2 (by rw [← hx]; exact hn.1)
        simp [this]
    · simp only [Dict.get?, hx, if_false]
      cases hd : p.2.domain with
      | none => simpa using ih
      | some d => simpa [Dict.get?, hx] using ih

/-! ## `_setup` -/

def Constraint.isAD (c : Constraint) : Bool := match c.kind with
  | .allDiff _ => true
  | _ => false

theorem filterDomain_ok {h : Heap} {c : Constraint} {x : Name} {d d' : List Int} (hd : filterDomain h c x d = .ok d') :
    d'.Sublist d ∧ ∀ v, v ∈ d' ↔ v ∈ d ∧ Holds h c [(x, v)] := by
  induction d generalizing d' with
  | nil => simp [filterDomain] at hd; subst hd; simp
  | cons w d ih =>
    simp only [filterDomain, bind_eq_ok] at hd
    obtain ⟨r, hr, rest, hrest, he⟩ := hd
    obtain ⟨h1, h2⟩ := ih hrest
    simp only [pure_res, Except.ok.injEq] at he
    have hH : Holds h c [(x, w)] ↔ truthy r = true := by
      unfold Holds
      rw [hr]
      simp [truthy]
    by_cases ht : truthy r = true
    · rw [if_pos ht] at he
      subst he
      refine ⟨h1.cons_cons w, fun v => ?_⟩
      simp only [List.mem_cons, h2]
      constructor
      · rintro (rfl | h)
        · exact ⟨.inl rfl, hH.2 ht⟩
        · exact ⟨.inr h.1, h.2⟩
      · rintro ⟨rfl | h, h'⟩
        · exact .inl rfl
        · exact .inr ⟨h, h'⟩
    · rw [if_neg ht] at he
      subst he
      refine ⟨h1.cons w, fun v => ?_⟩
      simp only [List.mem_cons, h2]
      constructor
      · rintro h; exact ⟨.inr h.1, h.2⟩
      · rintro ⟨rfl | h, h'⟩
        · exact absurd (hH.1 h') ht
        · exact ⟨h, h'⟩

/-- State of the loop of `_setup` after the constraints `cs`; `H` is the heap in which constraints are
evaluated. -/
structure SetupInv (m : Model) (H : Heap) (cs : List Constraint) (info : Info) : Prop where
  keys : info.vars.keys = m.pureVars.keys
  dom : ∀ x d, info.vars.get? x = some d → ∃ d0, m.pureVars.get? x = some d0 ∧ d.Sublist d0 ∧
    ∀ v, v ∈ d ↔ v ∈ d0 ∧ ∀ c ∈ cs, c.isAD = false → c.vars = [x] → Holds H c [(x, v)]
  cons : ∀ x, info.cons x = cs.filter (fun c => !c.isAD && decide (c.vars.length ≠ 1) && decide (x ∈ c.vars))
  ad : ∀ x y, y ∈ info.ad x ↔ x ≠ y ∧ ∃ c ∈ cs, c.isAD = true ∧ x ∈ c.vars ∧ y ∈ c.vars
  groups : info.groups = (cs.filter (·.isAD)).map Constraint.vars

theorem setupInv_init (m : Model) (H : Heap) : SetupInv m H [] (.init m) where
  keys := rfl
  dom := by intro x d h; exact ⟨d, h, .refl _, by simp⟩
  cons := by simp [Info.init]
  ad := by simp [Info.init]
  groups := rfl

theorem Dict.keys_set_of_mem {α} {d : Dict α} {k : Name} {v : α} (h : k ∈ d.keys) : (d.set k v).keys = d.keys := by
  induction d with
  | nil => simp [Dict.keys] at h
  | cons p d ih =>
    simp only [Dict.set]
    split
    · simp [Dict.keys]
    · rename_i hne
      simp only [Dict.keys, List.map_cons, List.mem_cons] at h ⊢
      rcases h with h | h
      · exact absurd h.symm hne
      · have := ih h
        simp only [Dict.keys] at this
        rw [this]

theorem setupOne_spec {m : Model} {H : Heap} {cs : List Constraint} {info info' : Info} {comp : Bool} {c : Constraint}
    {h h' : Heap} (hi : SetupInv m H cs info) (hs : setupOne comp c h info = (h', .ok info'))
    (hev : ∀ σ, c.evaluate (compileAll comp [c] h) σ = c.evaluate H σ) :
    h' = compileAll comp [c] h ∧ SetupInv m H (cs ++ [c]) info' := by
  have hcomp : (if comp = true then c.compile h else h) = compileAll comp [c] h := by
    cases comp <;> rfl
  unfold setupOne at hs
  simp only [hcomp] at hs
  have hHolds : ∀ σ, Holds (compileAll comp [c] h) c σ ↔ Holds H c σ := by
    intro σ; unfold Holds; rw [hev]
  cases hk : c.kind with
  | allDiff ns =>
    have hAD : c.isAD = true := by simp [Constraint.isAD, hk]
    rw [hk] at hs
    simp only [Prod.mk.injEq, Except.ok.injEq] at hs
    obtain ⟨rfl, rfl⟩ := hs
    refine ⟨rfl, ⟨hi.keys, ?_, ?_, ?_, ?_⟩⟩
    · intro x d hx
      obtain ⟨d0, h0, h1, h2⟩ := hi.dom x d hx
      refine ⟨d0, h0, h1, fun v => ?_⟩
      rw [h2]
      refine and_congr_right (fun _ => ⟨fun h c' hc' hne => ?_, fun h c' hc' => h c' (by simp [hc'])⟩)
      rcases List.mem_append.1 hc' with hc' | hc'
      · exact h c' hc' hne
      · simp at hc'; subst hc'; rw [hAD] at hne; cases hne
    · intro x; simp only [hi.cons, List.filter_append]; simp [hAD]
    · intro x y
      simp only
      have : (y ∈ if c.vars.length > 1 ∧ x ∈ c.vars then info.ad x ++ c.vars.filter (· ≠ x) else info.ad x) ↔
          y ∈ info.ad x ∨ (x ≠ y ∧ x ∈ c.vars ∧ y ∈ c.vars) := by
        split
        · rename_i hc
          simp only [List.mem_append, List.mem_filter, decide_eq_true_eq]
          constructor
          · rintro (h | h)
            · exact .inl h
            · exact .inr ⟨Ne.symm h.2, hc.2, h.1⟩
          · rintro (h | h)
            · exact .inl h
            · exact .inr ⟨h.2.2, Ne.symm h.1⟩
        · rename_i hc
          constructor
          · exact .inl
          · rintro (h | ⟨hne, hx, hy⟩)
            · exact h
            · exfalso; apply hc
              refine ⟨?_, hx⟩
              cases hv : c.vars with
              | nil => rw [hv] at hx; simp at hx
              | cons a l => cases l with
                | nil => rw [hv] at hx hy; simp at hx hy; exact absurd (hx.trans hy.symm) hne
                | cons b l => simp
      rw [this, hi.ad]
      constructor
      · rintro (⟨hne, c', hc', h⟩ | ⟨hne, h⟩)
        · exact ⟨hne, c', by simp [hc'], h⟩
        · exact ⟨hne, c, by simp, hAD, h⟩
      · rintro ⟨hne, c', hc', h⟩
        rcases List.mem_append.1 hc' with hc' | hc'
        · exact .inl ⟨hne, c', hc', h⟩
        · simp at hc'; subst hc'; exact .inr ⟨hne, h.2⟩
    · simp [hi.groups, hAD]
  | _ =>
    have hAD : c.isAD = false := by simp [Constraint.isAD, hk]
    rw [hk] at hs
    simp only at hs
    split at hs
    · -- single variable
      rename_i x hv
      split at hs
      · rename_i d hd
        split at hs
        · rename_i d' hd'
          simp only [Prod.mk.injEq, Except.ok.injEq] at hs
          obtain ⟨rfl, rfl⟩ := hs
          obtain ⟨hsub, hmem⟩ := filterDomain_ok hd'
          refine ⟨rfl, ⟨?_, ?_, ?_, ?_, ?_⟩⟩
          · simp only [Dict.keys_set_of_mem (Dict.mem_keys_of_get? hd), hi.keys]
          · intro y d1 hy
            simp only [Dict.get?_set] at hy
            split at hy
            · rename_i hxy; subst hxy
              cases hy
              obtain ⟨d0, h0, h1, h2⟩ := hi.dom x d hd
              refine ⟨d0, h0, hsub.trans h1, fun v => ?_⟩
              rw [hmem, h2, hHolds]
              constructor
              · rintro ⟨⟨h3, h4⟩, h5⟩
                refine ⟨h3, fun c' hc' ha hv' => ?_⟩
                rcases List.mem_append.1 hc' with hc' | hc'
                · exact h4 c' hc' ha hv'
                · simp at hc'; subst hc'; exact h5
              · rintro ⟨h3, h4⟩
                exact ⟨⟨h3, fun c' hc' => h4 c' (by simp [hc'])⟩, h4 c (by simp) hAD hv⟩
            · rename_i hxy
              obtain ⟨d0, h0, h1, h2⟩ := hi.dom y d1 hy
              refine ⟨d0, h0, h1, fun v => ?_⟩
              rw [h2]
              refine and_congr_right (fun _ => ⟨fun h c' hc' ha hv' => ?_, fun h c' hc' => h c' (by simp [hc'])⟩)
              rcases List.mem_append.1 hc' with hc' | hc'
              · exact h c' hc' ha hv'
              · simp at hc'; subst hc'; rw [hv] at hv'; simp at hv'; exact absurd hv' hxy
          · intro x'; simp only [hi.cons, List.filter_append]; simp [hv]
          · intro x' y'
            simp only [hi.ad]
            refine and_congr_right (fun _ => ⟨fun ⟨c', hc', h⟩ => ⟨c', by simp [hc'], h⟩, fun ⟨c', hc', h⟩ => ?_⟩)
            rcases List.mem_append.1 hc' with hc' | hc'
            · exact ⟨c', hc', h⟩
            · simp at hc'; subst hc'; rw [hAD] at h; simp at h
          · simp [hi.groups, hAD]
        · simp at hs
      · rename_i hd
        simp only [Prod.mk.injEq, Except.ok.injEq] at hs
        obtain ⟨rfl, rfl⟩ := hs
        refine ⟨rfl, ⟨hi.keys, ?_, ?_, ?_, ?_⟩⟩
        · intro y d1 hy
          obtain ⟨d0, h0, h1, h2⟩ := hi.dom y d1 hy
          refine ⟨d0, h0, h1, fun v => ?_⟩
          rw [h2]
          refine and_congr_right (fun _ => ⟨fun h c' hc' ha hv' => ?_, fun h c' hc' => h c' (by simp [hc'])⟩)
          rcases List.mem_append.1 hc' with hc' | hc'
          · exact h c' hc' ha hv'
          · simp at hc'; subst hc'; rw [hv] at hv'; simp at hv'; subst hv'
            simp only at hy
            rw [hd] at hy; cases hy
        · intro x'; simp only [hi.cons, List.filter_append]; simp [hv]
        · intro x' y'
          simp only [hi.ad]
          refine and_congr_right (fun _ => ⟨fun ⟨c', hc', h⟩ => ⟨c', by simp [hc'], h⟩, fun ⟨c', hc', h⟩ => ?_⟩)
          rcases List.mem_append.1 hc' with hc' | hc'
          · exact ⟨c', hc', h⟩
          · simp at hc'; subst hc'; rw [hAD] at h; simp at h
        · simp [hi.groups, hAD]
    · rename_i hv
      have hlen : c.vars.length ≠ 1 := by
        intro h
        obtain ⟨x, hx⟩ := List.length_eq_one_iff.1 h
        exact hv x hx
      simp only [Prod.mk.injEq, Except.ok.injEq] at hs
      obtain ⟨rfl, rfl⟩ := hs
      refine ⟨rfl, ⟨hi.keys, ?_, ?_, ?_, ?_⟩⟩
      · intro y d1 hy
        obtain ⟨d0, h0, h1, h2⟩ := hi.dom y d1 hy
        refine ⟨d0, h0, h1, fun v => ?_⟩
        rw [h2]
        refine and_congr_right (fun _ => ⟨fun h c' hc' ha hv' => ?_, fun h c' hc' => h c' (by simp [hc'])⟩)
        rcases List.mem_append.1 hc' with hc' | hc'
        · exact h c' hc' ha hv'
        · simp at hc'; subst hc'; rw [hv'] at hlen; simp at hlen
      · intro x'
        simp only [hi.cons, List.filter_append]
        by_cases hx' : x' ∈ c.vars <;> simp [hx', hAD, hlen]
      · intro x' y'
        simp only [hi.ad]
        refine and_congr_right (fun _ => ⟨fun ⟨c', hc', h⟩ => ⟨c', by simp [hc'], h⟩, fun ⟨c', hc', h⟩ => ?_⟩)
        rcases List.mem_append.1 hc' with hc' | hc'
        · exact ⟨c', hc', h⟩
        · simp at hc'; subst hc'; rw [hAD] at h; simp at h
      · simp [hi.groups, hAD]

theorem evaluate_after {comp : Bool} {pre post : List Constraint} {c : Constraint} {h0 : Heap}
    (hs : ∀ c' ∈ post, c.id = c'.id → c = c') (σ : Subst) :
    c.evaluate (compileAll comp [c] (compileAll comp pre h0)) σ =
      c.evaluate (compileAll comp (pre ++ c :: post) h0) σ := by
  cases comp
  · rfl
  · rw [show pre ++ c :: post = pre ++ ([c] ++ post) from rfl, compileAll_append, compileAll_append]
    refine evaluate_of_now (compile_now _ _) (compileAll_keep (compile_now _ _) hs) ?_ σ
    simp

theorem setupLoop_spec {m : Model} {comp : Bool} {h0 : Heap} (rest : List Constraint) :
    ∀ (pre : List Constraint) (info info' : Info) (h' : Heap),
    SameIds (pre ++ rest) →
    SetupInv m (compileAll comp (pre ++ rest) h0) pre info →
    setupLoop comp rest (compileAll comp pre h0) info = (h', .ok info') →
    h' = compileAll comp (pre ++ rest) h0 ∧ SetupInv m (compileAll comp (pre ++ rest) h0) (pre ++ rest) info' := by
  induction rest with
  | nil =>
    intro pre info info' h' _ hi hs
    simp only [setupLoop, Prod.mk.injEq, Except.ok.injEq] at hs
    simp only [List.append_nil] at hi ⊢
    exact ⟨hs.1.symm, hs.2 ▸ hi⟩
  | cons c rest ih =>
    intro pre info info' h' hsame hi hs
    rw [setupLoop] at hs
    have hassoc : pre ++ c :: rest = (pre ++ [c]) ++ rest := by simp
    cases h1 : setupOne comp c (compileAll comp pre h0) info with
    | mk h1' r =>
      rw [h1] at hs
      cases r with
      | error e => simp at hs
      | ok info1 =>
        obtain ⟨he, hi1⟩ := setupOne_spec hi h1 (fun σ => evaluate_after (post := rest)
          (fun c' hc' hid => hsame c (by simp) c' (by simp [hc']) hid) σ)
        rw [he, ← compileAll_append] at hs
        rw [hassoc] at hsame hi1 ⊢
        exact ih (pre ++ [c]) info1 info' h' hsame hi1 hs

theorem checkGroups_ok {vars : Dict (List Int)} {gs : List (List Name)} (h : checkGroups vars gs = .ok ()) :
    ∀ g ∈ gs, g ≠ [] ∧ ∀ x ∈ g, x ∈ vars.keys := by
  induction gs with
  | nil => simp
  | cons g gs ih =>
    simp only [checkGroups] at h
    split at h
    · cases h
    · rename_i h1
      split at h
      · cases h
      · rename_i h2
        intro g' hg'
        rcases List.mem_cons.1 hg' with rfl | hg'
        · refine ⟨by intro hn; simp [hn] at h2, fun x hx => ?_⟩
          by_contra hc
          apply h1
          rw [List.any_eq_true]
          refine ⟨x, hx, ?_⟩
          cases hh : vars.has x with
          | true => exact absurd ((Dict.has_iff _ _).1 hh) hc
          | false => rfl
        · exact ih h g' hg'

theorem setup_spec {m : Model} {comp : Bool} {h h' : Heap} {adds : List Constraint} {info : Info}
    (hs : SameIds (m.constraints ++ adds)) (he : setup comp m adds h = (h', .ok info)) :
    h' = compileAll comp (m.constraints ++ adds) h ∧
    SetupInv m (compileAll comp (m.constraints ++ adds) h) (m.constraints ++ adds) info ∧
    ∀ c ∈ m.constraints ++ adds, c.isAD = true → c.vars ≠ [] ∧ ∀ x ∈ c.vars, x ∈ m.pureVars.keys := by
  unfold setup at he
  cases hl : setupLoop comp (m.constraints ++ adds) h (.init m) with
  | mk h1 r =>
    rw [hl] at he
    cases r with
    | error e => simp at he
    | ok info1 =>
      simp only at he
      cases hg : checkGroups info1.vars info1.groups with
      | error e => rw [hg] at he; simp at he
      | ok u =>
        rw [hg] at he
        simp only [Prod.mk.injEq, Except.ok.injEq] at he
        obtain ⟨rfl, rfl⟩ := he
        have := setupLoop_spec (m := m) (comp := comp) (h0 := h) (m.constraints ++ adds) [] (.init m) info1 h1 hs
          (setupInv_init _ _) (by cases comp <;> simpa [compileAll] using hl)
        simp only [List.nil_append] at this
        refine ⟨this.1, this.2, fun c hc had => ?_⟩
        have := checkGroups_ok hg c.vars (by rw [this.2.groups]; exact List.mem_map.2 ⟨c, List.mem_filter.2 ⟨hc, had⟩, rfl⟩)
        rw [(setupLoop_spec (m := m) (comp := comp) (h0 := h) (m.constraints ++ adds) [] (.init m) info1 h1 hs
          (setupInv_init _ _) (by cases comp <;> simpa [compileAll] using hl)).2.keys] at this
        exact this

/-! ## Accepted values -/

theorem noneUnsat_true {h : Heap} {σ : Subst} {cs : List Constraint} :
    noneUnsat h σ cs = .ok true ↔ ∀ c ∈ cs, c.unsatisfied h σ = .ok false := by
  induction cs with
  | nil => simp [noneUnsat]
  | cons c cs ih =>
    simp only [noneUnsat, List.mem_cons, forall_eq_or_imp]
    cases hu : c.unsatisfied h σ with
    | error e => simp
    | ok b => cases b <;> simp [ih]

theorem acceptable_true {h : Heap} {info : Info} {x : Name} {σ : Subst} {v : Int} :
    acceptable h info x σ v = .ok true ↔
      (∀ y ∈ info.ad x, (σ.set x v).get? y ≠ some v) ∧
      ∀ c ∈ info.cons x, c.unsatisfied h (σ.set x v) = .ok false := by
  unfold acceptable
  simp only
  split
  · rename_i hc
    rw [List.any_eq_true] at hc
    obtain ⟨y, hy, h'⟩ := hc
    simp only [Except.ok.injEq, Bool.false_eq_true, false_iff, not_and]
    intro h1
    exact absurd (by simpa using h') (h1 y hy)
  · rename_i hc
    rw [noneUnsat_true]
    constructor
    · intro h'
      refine ⟨fun y hy he => hc ?_, h'⟩
      rw [List.any_eq_true]
      exact ⟨y, hy, by simpa using he⟩
    · exact fun h => h.2

theorem candLoop_ok {h : Heap} {info : Info} {x : Name} {σ : Subst} {d vs : List Int}
    (hc : candLoop h info x σ d = .ok vs) :
    vs.Sublist d ∧ ∀ v, v ∈ vs ↔ v ∈ d ∧ acceptable h info x σ v = .ok true := by
  induction d generalizing vs with
  | nil => simp [candLoop] at hc; subst hc; simp
  | cons w d ih =>
    simp only [candLoop, bind_eq_ok] at hc
    obtain ⟨r, hr, rest, hrest, he⟩ := hc
    obtain ⟨h1, h2⟩ := ih hrest
    simp only [pure_res, Except.ok.injEq] at he
    cases r with
    | true =>
      simp only [if_true] at he
      subst he
      refine ⟨h1.cons_cons w, fun v => ?_⟩
      simp only [List.mem_cons, h2]
      constructor
      · rintro (rfl | h)
        · exact ⟨.inl rfl, hr⟩
        · exact ⟨.inr h.1, h.2⟩
      · rintro ⟨rfl | h, h'⟩
        · exact .inl rfl
        · exact .inr ⟨h, h'⟩
    | false =>
      simp only [Bool.false_eq_true, if_false] at he
      subst he
      refine ⟨h1.cons w, fun v => ?_⟩
      simp only [List.mem_cons, h2]
      constructor
      · rintro h; exact ⟨.inr h.1, h.2⟩
      · rintro ⟨rfl | h, h'⟩
        · rw [hr] at h'; simp at h'
        · exact ⟨h, h'⟩

theorem candidates_ok {info : Info} {h : Heap} {x : Name} {σ : Subst} {vs : List Int}
    (hc : candidates info h x σ = .ok vs) :
    ∃ d, info.vars.get? x = some d ∧ vs.Sublist d ∧ ∀ v, v ∈ vs ↔ v ∈ d ∧ acceptable h info x σ v = .ok true := by
  unfold candidates at hc
  cases hd : info.vars.get? x with
  | none => rw [hd] at hc; simp at hc
  | some d => rw [hd] at hc; exact ⟨d, rfl, candLoop_ok hc⟩

/-- The value `v` is accepted for `x`, as far as the constraints satisfying `R` are concerned. -/
def Accepts (info : Info) (H : Heap) (R : Constraint → Prop) (x : Name) (σ : Subst) (v : Int) : Prop :=
  (∃ d, info.vars.get? x = some d ∧ v ∈ d) ∧ (∀ y ∈ info.ad x, (σ.set x v).get? y ≠ some v) ∧
    ∀ c ∈ info.cons x, R c → c.unsatisfied H (σ.set x v) = .ok false

theorem unsatisfied_eq_of_evaluate {h h' : Heap} {c : Constraint} {σ : Subst} (he : c.evaluate h σ = c.evaluate h' σ) :
    c.unsatisfied h σ = c.unsatisfied h' σ := by
  unfold Constraint.unsatisfied; rw [he]

theorem accepts_of_candidates {info : Info} {h H : Heap} {R : Constraint → Prop} {x : Name} {σ : Subst} {vs : List Int}
    (hR : ∀ x, ∀ c ∈ info.cons x, R c → ∀ σ, c.evaluate h σ = c.evaluate H σ)
    (hc : candidates info h x σ = .ok vs) : ∀ v ∈ vs, Accepts info H R x σ v := by
  intro v hv
  obtain ⟨d, hd, _, hm⟩ := candidates_ok hc
  obtain ⟨h1, h2⟩ := (hm v).1 hv
  obtain ⟨h3, h4⟩ := acceptable_true.1 h2
  refine ⟨⟨d, hd, h1⟩, h3, fun c hc' hr => ?_⟩
  rw [← unsatisfied_eq_of_evaluate (hR x c hc' hr _)]
  exact h4 c hc'

theorem holds_congr {h : Heap} {c : Constraint} (hf : FnOk h c) {σ σ' : Subst}
    (hs : ∀ x ∈ c.vars, σ.get? x = σ'.get? x) : Holds h c σ ↔ Holds h c σ' := by
  unfold Holds; rw [evaluate_congr hf hs]

theorem holds_of_unsat {h : Heap} {c : Constraint} {σ : Subst} (hb : ∀ x ∈ c.vars, σ.get? x ≠ none)
    (hu : c.unsatisfied h σ = .ok false) : Holds h c σ := by
  rw [unsat_of_bound hb, bind_eq_ok] at hu
  obtain ⟨r, hr, h'⟩ := hu
  simp only [pure_res, Except.ok.injEq, Bool.not_eq_false'] at h'
  exact ⟨r, hr, by simpa [truthy] using h'⟩

theorem unsat_of_holds {h : Heap} {c : Constraint} {σ : Subst} (hh : Holds h c σ) : c.unsatisfied h σ = .ok false := by
  obtain ⟨r, hr, h'⟩ := hh
  unfold Constraint.unsatisfied
  split
  · rfl
  · simp [hr, truthy, h']

/-- All-different in plain words. -/
theorem holds_allDiff {h : Heap} {c : Constraint} (hc : c.isAD = true) {σ : Subst} :
    Holds h c σ ↔ (∀ x ∈ c.vars, σ.get? x ≠ none) ∧ ∀ x ∈ c.vars, ∀ y ∈ c.vars, x ≠ y → σ.get? x ≠ σ.get? y := by
  obtain ⟨i, k⟩ := c
  cases k with
  | const b => simp [Constraint.isAD] at hc
  | expr e => simp [Constraint.isAD] at hc
  | allDiff ns =>
    have hv : (⟨i, .allDiff ns⟩ : Constraint).vars = dedup ns := rfl
    rw [hv]
    have hnd := nodup_dedup ns
    unfold Holds
    simp only [Constraint.evaluate]
    by_cases hb : ∀ x ∈ dedup ns, σ.get? x ≠ none
    · obtain ⟨vs, hvs⟩ := lookupAll_total hb
      have hmap := lookupAll_ok.1 hvs
      rw [hvs]
      simp only [ok_bind, pure_res, Except.ok.injEq, exists_eq_left']
      have h1 : ofBool (decide ((dedup vs).length = (dedup ns).length)) ≠ 0 ↔ (dedup vs).length = (dedup ns).length := by
        by_cases h : (dedup vs).length = (dedup ns).length <;> simp [h, ofBool]
      have hlen : vs.length = (dedup ns).length := by
        have := congrArg List.length hmap; simp at this; exact this.symm
      rw [h1, ← hlen, length_dedup_eq]
      have h2 : vs.Nodup ↔ ((dedup ns).map σ.get?).Nodup := by
        rw [hmap]
        exact (List.nodup_map_iff (Option.some_injective _)).symm
      rw [h2]
      constructor
      · intro h
        refine ⟨hb, fun x hx y hy hne he => hne ?_⟩
        exact List.inj_on_of_nodup_map h hx hy he
      · rintro ⟨_, h⟩
        refine hnd.map_on ?_
        intro x hx y hy he
        by_contra hne
        exact h x hx y hy hne he
    · constructor
      · rintro ⟨r, hr, _⟩
        exfalso
        apply hb
        intro x hx hn
        rw [lookupAll_error.1 ⟨x, hx, hn⟩] at hr
        simp at hr
      · rintro ⟨h, _⟩; exact absurd h hb

/-- **Soundness of a path.** -/
theorem path_sound {m : Model} {H : Heap} {cs : List Constraint} {info : Info} (hm : m.vars.keys.Nodup)
    (hi : SetupInv m H cs info) {R : Constraint → Prop} {names : List Name} (hp : names.Perm m.pureVars.keys)
    {τ : Subst} (hpath : Path (Accepts info H R) names [] τ) :
    Assignment m τ ∧ ∀ c ∈ cs, Over m c → FnOk H c → (c.isAD = true ∨ c.vars.length = 1 ∨ R c) → Holds H c τ := by
  have hn : names.Nodup := hp.nodup_iff.2 (pureVars_nodup hm)
  have hkeys := hpath.keys hn (by simp)
  simp only [Dict.keys, List.map_nil, List.nil_append] at hkeys
  have hmem : ∀ x, x ∈ names ↔ (m.domain? x).isSome := by
    intro x
    rw [hp.mem_iff, ← pureVars_get? hm]
    constructor
    · intro h; obtain ⟨v, hv⟩ := Dict.get?_isSome_of_mem_keys h; simp [hv]
    · intro h; obtain ⟨v, hv⟩ := Option.isSome_iff_exists.1 h; exact Dict.mem_keys_of_get? hv
  have hasg : Assignment m τ := by
    refine ⟨by show (τ.map (·.1)).Nodup; rw [hkeys]; exact hn, fun x => by
      show x ∈ τ.map (·.1) ↔ _; rw [hkeys]; exact hmem x, ?_⟩
    intro x v hv
    have hx : x ∈ names := by
      rw [← hkeys]; exact Dict.mem_keys_of_get? hv
    obtain ⟨_, _, σ1, w, _, hg, _, hw, _⟩ := hpath.at hn (by simp) x hx
    obtain ⟨⟨d, hd, hwd⟩, _⟩ := hg
    obtain ⟨d0, hd0, hsub, _⟩ := hi.dom x d hd
    rw [hv] at hw; cases hw
    exact ⟨d0, by rw [← pureVars_get? hm]; exact hd0, hsub.mem hwd⟩
  refine ⟨hasg, fun c hc hover hfn hcase => ?_⟩
  have hbound : ∀ x ∈ c.vars, τ.get? x ≠ none := by
    intro x hx hnone
    have := (Dict.get?_eq_none_iff _ _).1 hnone
    exact this ((hasg.keys x).2 (hover.2 x hx))
  by_cases had : c.isAD = true
  · rw [holds_allDiff had]
    refine ⟨hbound, fun x hx y hy hne he => ?_⟩
    -- whichever of the two is bound later differs from the other
    obtain ⟨z, hz, σ1, v, _, hg, hzv, hag⟩ := hpath.last hn (by simp) (vs := [x, y])
      ⟨x, by simp, (hmem x).2 (hover.2 x hx)⟩
    obtain ⟨v', hv'⟩ : ∃ v', τ.get? x = some v' := Option.ne_none_iff_exists'.1 (hbound x hx)
    have hyv : τ.get? y = some v' := by rw [← he, hv']
    simp only [List.mem_cons, List.not_mem_nil, or_false] at hz
    rcases hz with rfl | rfl
    · rw [hzv] at hv'; cases hv'
      exact hg.2.1 y ((hi.ad z y).2 ⟨hne, c, hc, had, hx, hy⟩) (by rw [hag y (by simp)]; exact hyv)
    · rw [hzv] at hyv; cases hyv
      exact hg.2.1 x ((hi.ad z x).2 ⟨Ne.symm hne, c, hc, had, hy, hx⟩) (by rw [hag x (by simp)]; exact hv')
  · have had : c.isAD = false := by simpa using had
    by_cases hlen : c.vars.length = 1
    · obtain ⟨x, hx⟩ := List.length_eq_one_iff.1 hlen
      obtain ⟨_, _, σ1, v, _, hg, _, hv, _⟩ := hpath.at hn (by simp) x ((hmem x).2 (hover.2 x (by simp [hx])))
      obtain ⟨⟨d, hd, hvd⟩, _⟩ := hg
      obtain ⟨d0, _, _, hmemd⟩ := hi.dom x d hd
      have := ((hmemd v).1 hvd).2 c hc had hx
      refine (holds_congr hfn ?_).1 this
      intro y hy
      rw [hx] at hy; simp at hy; subst hy
      simp [Dict.get?, hv]
    · have hR : R c := by
        rcases hcase with h | h | h
        · rw [had] at h; cases h
        · exact absurd h hlen
        · exact h
      obtain ⟨x0, hx0⟩ := List.exists_mem_of_ne_nil _ hover.1
      obtain ⟨x, hx, σ1, v, _, hg, _, hag⟩ := hpath.last hn (by simp) (vs := c.vars)
        ⟨x0, hx0, (hmem x0).2 (hover.2 x0 hx0)⟩
      have hin : c ∈ info.cons x := by
        rw [hi.cons]
        simp [hc, had, hlen, hx]
      have hu := hg.2.2 c hin hR
      have hb : ∀ y ∈ c.vars, (σ1.set x v).get? y ≠ none := by
        intro y hy; rw [hag y hy]; exact hbound y hy
      exact (holds_congr hfn hag).1 (holds_of_unsat hb hu)

/-- **Completeness of paths.** Every solution is reached by a path of accepted values. -/
theorem path_complete_over {m : Model} {H : Heap} {cs : List Constraint} {info : Info} (hm : m.vars.keys.Nodup)
    (hi : SetupInv m H cs info) (hfn : ∀ c ∈ cs, FnOk H c) {names : List Name} (hp : names.Perm m.pureVars.keys)
    (had : ∀ c ∈ cs, c.isAD = true → c.vars ≠ [] ∧ ∀ x ∈ c.vars, x ∈ m.pureVars.keys)
    {τ : Subst} (hs : Assignment m τ) (hcon : ∀ c ∈ cs, Over m c → Holds H c τ) :
    ∃ τ', Path (fun x σ v => ∀ vs, candidates info H x σ = .ok vs → v ∈ vs) names [] τ' ∧ SameDict τ' τ := by
  have hn : names.Nodup := hp.nodup_iff.2 (pureVars_nodup hm)
  have hmem : ∀ x, x ∈ names ↔ (m.domain? x).isSome := by
    intro x
    rw [hp.mem_iff, ← pureVars_get? hm]
    constructor
    · intro h; obtain ⟨v, hv⟩ := Dict.get?_isSome_of_mem_keys h; simp [hv]
    · intro h; obtain ⟨v, hv⟩ := Option.isSome_iff_exists.1 h; exact Dict.mem_keys_of_get? hv
  obtain ⟨τ', hpath, hsame⟩ := path_of_total (P := fun x σ v => ∀ vs, candidates info H x σ = .ok vs → v ∈ vs)
    (xs := names) τ [] hn (by simp)
    (by intro x hx
        have : x ∈ τ.keys := (hs.keys x).2 ((hmem x).1 hx)
        exact Dict.get?_isSome_of_mem_keys this)
    (by
      intro x σ1 v hsub hx hfresh hv vs hvs
      have hsub : ∀ y w, (σ1.set x v).get? y = some w → τ.get? y = some w := by
        intro y w hy
        rcases hsub y w hy with h | h
        · simp at h
        · exact h.2
      obtain ⟨d, hd, _, hmemvs⟩ := candidates_ok hvs
      refine (hmemvs v).2 ⟨?_, acceptable_true.2 ⟨?_, ?_⟩⟩
      · obtain ⟨d0, hd0, _, hmd⟩ := hi.dom x d hd
        refine (hmd v).2 ⟨?_, fun c hc hnad hcv => ?_⟩
        · obtain ⟨d1, hd1, hvd⟩ := hs.dom x v hv
          rw [pureVars_get? hm, hd1] at hd0
          cases hd0; exact hvd
        · have hov : Over m c := by
            refine ⟨by rw [hcv]; simp, fun y hy => ?_⟩
            rw [hcv, List.mem_singleton] at hy
            exact (hmem y).1 (hy ▸ hx)
          refine (holds_congr (hfn c hc) ?_).1 (hcon c hc hov)
          intro y hy
          rw [hcv] at hy; simp at hy; subst hy
          simp [Dict.get?, hv]
      · intro y hy hyv
        obtain ⟨hne, c, hc, hcad, hxc, hyc⟩ := (hi.ad x y).1 hy
        have hov : Over m c := ⟨(had c hc hcad).1, fun z hz => (hmem z).1 (hp.mem_iff.2 ((had c hc hcad).2 z hz))⟩
        have := (holds_allDiff hcad).1 (hcon c hc hov)
        exact this.2 x hxc y hyc hne (by rw [hv, hsub y v hyv])
      · intro c hc
        rw [hi.cons] at hc
        have hc' : c ∈ cs := (List.mem_filter.1 hc).1
        have hxc : x ∈ c.vars := by
          have := (List.mem_filter.1 hc).2
          simp only [Bool.and_eq_true, decide_eq_true_eq] at this
          exact this.2
        by_cases hb : ∀ y ∈ c.vars, (σ1.set x v).get? y ≠ none
        · have hov : Over m c := by
            refine ⟨List.ne_nil_of_mem hxc, fun y hy => (hs.keys y).1 ?_⟩
            obtain ⟨w, hw⟩ := Option.ne_none_iff_exists'.1 (hb y hy)
            exact Dict.mem_keys_of_get? (hsub y w hw)
          refine unsat_of_holds ((holds_congr (hfn c hc') ?_).1 (hcon c hc' hov))
          intro y hy
          obtain ⟨w, hw⟩ := Option.ne_none_iff_exists'.1 (hb y hy)
          rw [hw, hsub y w hw]
        · simp only [not_forall, not_not] at hb
          obtain ⟨y, hy, hnone⟩ := hb
          exact unsat_of_missing hy hnone)
  refine ⟨τ', hpath, fun x => ?_⟩
  by_cases hx : x ∈ names
  · exact hsame x hx
  · rw [hpath.old x hx]
    have : x ∉ τ.keys := by rw [hs.keys x, ← hmem x]; exact hx
    rw [(Dict.get?_eq_none_iff _ _).2 this]; rfl

theorem path_complete {m : Model} {H : Heap} {cs : List Constraint} {info : Info} (hm : m.vars.keys.Nodup)
    (hi : SetupInv m H cs info) (hfn : ∀ c ∈ cs, FnOk H c) {names : List Name} (hp : names.Perm m.pureVars.keys)
    (had : ∀ c ∈ cs, c.isAD = true → c.vars ≠ [] ∧ ∀ x ∈ c.vars, x ∈ m.pureVars.keys)
    {τ : Subst} (hs : IsSolution m cs H τ) :
    ∃ τ', Path (fun x σ v => ∀ vs, candidates info H x σ = .ok vs → v ∈ vs) names [] τ' ∧ SameDict τ' τ :=
  path_complete_over hm hi hfn hp had hs.toAssignment (fun c hc _ => hs.con c hc)

end Satisfy
