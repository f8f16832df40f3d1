import Verif.Props.Optimize
/-! Two runs of the solver on constraints that are equal up to the identities of their objects. -/

namespace Satisfy

open Props

/-! ## Making the same `ModelInfo` -/

def CKind.isAD : CKind → Bool
  | .allDiff _ => true
  | _ => false

/-- The setup treats the constraints alike. -/
structure SameCon (c c' : Constraint) : Prop where
  vars : c.vars = c'.vars
  ad : c.kind.isAD = c'.kind.isAD

/-- The same, with constraints related by `R`. -/
structure SameInfo (R : Constraint → Constraint → Prop) (i i' : Info) : Prop where
  vars : i.vars = i'.vars
  ad : i.ad = i'.ad
  bounds : i.bounds = i'.bounds
  sizes : i.sizes = i'.sizes
  groups : i.groups = i'.groups
  varGroups : i.varGroups = i'.varGroups
  cons : ∀ x, List.Forall₂ R (i.cons x) (i'.cons x)

def SameRes (R : Constraint → Constraint → Prop) : Res Info → Res Info → Prop
  | .ok i, .ok i' => SameInfo R i i'
  | .error e, .error e' => e = e'
  | _, _ => False

variable {R : Constraint → Constraint → Prop}

theorem filterDomain_same {h h' : Heap} {c c' : Constraint} (he : ∀ σ, c.evaluate h σ = c'.evaluate h' σ) (x : Name) (d : List Int) :
    filterDomain h c x d = filterDomain h' c' x d := by
  induction d with
  | nil => rfl
  | cons v d ih => simp only [filterDomain, ih, he]

/-- `setupOne` for constraints that are not all-different. -/
theorem setupOne_plain {comp : Bool} {c : Constraint} {h : Heap} {info : Info} (hc : c.kind.isAD = false) :
    setupOne comp c h info =
      (let h := compileAll comp [c] h
       let info := { info with bounds := addBounds c.vars info.bounds }
       match c.vars with
       | [x] =>
         match info.vars.get? x with
         | some d => match filterDomain h c x d with
           | .ok d' => (h, .ok { info with vars := info.vars.set x d' })
           | .error e => (h, .error e)
         | none => (h, .ok info)
       | vs => (h, .ok { info with cons := fun x => if x ∈ vs then info.cons x ++ [c] else info.cons x })) := by
  have hcomp : (if comp = true then c.compile h else h) = compileAll comp [c] h := by cases comp <;> rfl
  unfold setupOne
  simp only [hcomp]
  obtain ⟨i, k⟩ := c
  cases k with
  | allDiff ns => simp [CKind.isAD] at hc
  | const b => rfl
  | expr e =>
    simp only
    match hv : Constraint.vars ⟨i, .expr e⟩ with
    | [] => rfl
    | [x] => rfl
    | x :: y :: ys => rfl

theorem setupOne_same {comp : Bool} {c c' : Constraint} {h h' : Heap} {info info' : Info} (hR : R c c') (hc : SameCon c c')
    (he : ∀ σ, c.evaluate (compileAll comp [c] h) σ = c'.evaluate (compileAll comp [c'] h') σ) (hi : SameInfo R info info') :
    SameRes R (setupOne comp c h info).2 (setupOne comp c' h' info').2 := by
  obtain ⟨v1, v2, v3, v4, v5, v6, v7⟩ := hi
  cases hk : c.kind.isAD with
  | true =>
    have hk' : c'.kind.isAD = true := by rw [← hc.ad, hk]
    obtain ⟨i, k⟩ := c
    obtain ⟨i', k'⟩ := c'
    cases k <;> simp [CKind.isAD] at hk
    cases k' <;> simp [CKind.isAD] at hk'
    have hv := hc.vars
    simp only [setupOne, SameRes]
    refine ⟨v1, ?_, ?_, v4, ?_, ?_, v7⟩
    · simp only [v2, hv]
    · simp only [v3, hv]
    · simp only [v5, hv]
    · simp only [v6, v5, hv]
  | false =>
    have hk' : c'.kind.isAD = false := by rw [← hc.ad, hk]
    rw [setupOne_plain hk, setupOne_plain hk']
    simp only
    rw [← hc.vars]
    have many : ∀ vs : List Name, SameInfo R
        { info with bounds := addBounds vs info.bounds, cons := fun x => if x ∈ vs then info.cons x ++ [c] else info.cons x }
        { info' with bounds := addBounds vs info'.bounds, cons := fun x => if x ∈ vs then info'.cons x ++ [c'] else info'.cons x } := by
      intro vs
      refine ⟨v1, v2, by simp only [v3], v4, v5, v6, fun x => ?_⟩
      simp only
      split
      · exact List.rel_append (v7 x) (.cons hR .nil)
      · exact v7 x
    match hvs : c.vars with
    | [] => exact many []
    | x :: y :: ys => exact many (x :: y :: ys)
    | [x] =>
      simp only
      rw [← v1]
      cases info.vars.get? x with
      | none => exact ⟨rfl, v2, by simp only [v3], v4, v5, v6, v7⟩
      | some d =>
        simp only
        rw [← filterDomain_same he]
        cases filterDomain (compileAll comp [c] h) c x d with
        | error e => rfl
        | ok d' => exact ⟨by first | rfl | simp only [v1], v2, by simp only [v3], v4, v5, v6, v7⟩

theorem setupLoop_same {comp : Bool} {rest rest' : List Constraint} (hr : List.Forall₂ (fun c c' => R c c' ∧ SameCon c c') rest rest') :
    ∀ (pre pre' : List Constraint) {h h' : Heap} {info info' : Info}, SameInfo R info info' →
    (∀ p c q p' c' q', rest = p ++ c :: q → rest' = p' ++ c' :: q' → p.length = p'.length → ∀ σ,
      c.evaluate (compileAll comp (pre ++ p ++ [c]) h) σ = c'.evaluate (compileAll comp (pre' ++ p' ++ [c']) h') σ) →
    SameRes R (setupLoop comp rest (compileAll comp pre h) info).2 (setupLoop comp rest' (compileAll comp pre' h') info').2 := by
  induction hr with
  | nil => intro pre pre' h h' info info' hi _; exact hi
  | @cons c c' rest rest' hcc hr ih =>
    intro pre pre' h h' info info' hi he
    rw [setupLoop, setupLoop]
    have h1 := setupOne_same (comp := comp) (h := compileAll comp pre h) (h' := compileAll comp pre' h') hcc.1 hcc.2 (by
        have := he [] c rest [] c' rest' rfl rfl rfl
        simpa [compileAll_append] using this) hi
    have e1 := setupOne_heap comp c (compileAll comp pre h) info
    have e2 := setupOne_heap comp c' (compileAll comp pre' h') info'
    rw [← compileAll_append] at e1 e2
    cases hs : setupOne comp c (compileAll comp pre h) info with
    | mk a r =>
      cases hs' : setupOne comp c' (compileAll comp pre' h') info' with
      | mk a' r' =>
        rw [hs, hs'] at h1
        rw [hs] at e1; rw [hs'] at e2
        simp only at h1 e1 e2
        cases r with
        | error e => cases r' with
          | error e' => exact h1
          | ok i' => exact h1.elim
        | ok i => cases r' with
          | error e' => exact h1.elim
          | ok i' =>
            simp only
            rw [e1, e2]
            refine ih (pre ++ [c]) (pre' ++ [c']) h1 ?_
            intro p d q p' d' q' hq hq' hlen σ
            have := he (c :: p) d q (c' :: p') d' q' (by simp [hq]) (by simp [hq']) (by simp [hlen]) σ
            simpa using this

/-- The models look the same to the solver, up to the identities of constraints. -/
structure SameModel (m m' : Model) : Prop where
  vars : m.pureVars = m'.pureVars
  solvable : m.solvable = m'.solvable

theorem init_same {m m' : Model} (hm : SameModel m m') : SameInfo R (.init m) (.init m') :=
  ⟨hm.vars, rfl, rfl, by simp only [Info.init, hm.vars], rfl, rfl, fun _ => .nil⟩

theorem setup_same {comp : Bool} {m m' : Model} (hm : SameModel m m') {adds adds' : List Constraint} {h h' : Heap}
    (hr : List.Forall₂ (fun c c' => R c c' ∧ SameCon c c') (m.constraints ++ adds) (m'.constraints ++ adds'))
    (he : ∀ p c q p' c' q', m.constraints ++ adds = p ++ c :: q → m'.constraints ++ adds' = p' ++ c' :: q' → p.length = p'.length → ∀ σ,
      c.evaluate (compileAll comp (p ++ [c]) h) σ = c'.evaluate (compileAll comp (p' ++ [c']) h') σ) :
    SameRes R (setup comp m adds h).2 (setup comp m' adds' h').2 := by
  have := setupLoop_same (comp := comp) hr [] [] (h := h) (h' := h') (init_same hm) (by simpa using he)
  have e1 : ∀ comp h, compileAll comp [] h = h := by intro comp h; cases comp <;> rfl
  rw [e1, e1] at this
  unfold setup
  cases hs : setupLoop comp (m.constraints ++ adds) h (.init m) with
  | mk a r =>
    cases hs' : setupLoop comp (m'.constraints ++ adds') h' (.init m') with
    | mk a' r' =>
      rw [hs, hs'] at this
      simp only at this
      cases r with
      | error e => cases r' with
        | error e' => exact this
        | ok i' => exact this.elim
      | ok i => cases r' with
        | error e' => exact this.elim
        | ok i' =>
          simp only
          have hg : checkGroups i.vars i.groups = checkGroups i'.vars i'.groups := by rw [this.vars, this.groups]
          rw [hg]
          cases checkGroups i'.vars i'.groups with
          | error e => rfl
          | ok u => exact this

theorem orderVars_same {m m' : Model} (hm : SameModel m m') {i i' : Info} (hi : SameInfo R i i') (p : Policy) (sh : List Name → List Name) :
    orderVars p sh m i = orderVars p sh m' i' := by
  have h1 : groupsLt i = groupsLt i' := by
    funext x y; unfold groupsLt groupPrio; rw [hi.varGroups, hi.bounds, hi.sizes]
  have h2 : ∀ x, (i.cons x).length = (i'.cons x).length := fun x => (hi.cons x).length_eq
  unfold orderVars Model.domSize
  simp only [h1, h2, hm.vars, hi.vars]

/-! ## The same candidates -/

theorem unsatisfied_same {h h' : Heap} {c c' : Constraint} (hc : c.vars = c'.vars) (he : ∀ σ, c.evaluate h σ = c'.evaluate h' σ) (σ : Subst) :
    c.unsatisfied h σ = c'.unsatisfied h' σ := by
  unfold Constraint.unsatisfied; rw [hc, he]

theorem candidates_same {h h' : Heap} {i i' : Info} (hi : SameInfo R i i')
    (he : ∀ c c', R c c' → c.vars = c'.vars ∧ ∀ σ, c.evaluate h σ = c'.evaluate h' σ) (x : Name) (σ : Subst) :
    candidates i h x σ = candidates i' h' x σ := by
  have h1 : ∀ σ, noneUnsat h σ (i.cons x) = noneUnsat h' σ (i'.cons x) := by
    intro σ
    have := hi.cons x
    generalize i.cons x = l at this
    generalize i'.cons x = l' at this
    induction this with
    | nil => rfl
    | cons hr _ ih =>
      simp only [noneUnsat]
      rw [unsatisfied_same (he _ _ hr).1 (he _ _ hr).2, ih]
  unfold candidates
  rw [hi.vars]
  cases i'.vars.get? x with
  | none => rfl
  | some d =>
    simp only
    induction d with
    | nil => rfl
    | cons v d ih => simp only [candLoop, acceptable, ih, h1, hi.ad]

/-! ## The same runs -/

theorem sysRun_same {S S' : Type} {Rel : S → S' → Prop} (cfg : RunCfg) {cand : S → Name → Subst → Res (List Int)}
    {cand' : S' → Name → Subst → Res (List Int)} {act : S → Subst → Res S} {act' : S' → Subst → Res S'}
    (hc : ∀ s s', Rel s s' → ∀ x σ, cand s x σ = cand' s' x σ)
    (ha : ∀ s s' σ, Rel s s' → (∃ e, act s σ = .error e ∧ act' s' σ = .error e) ∨ ∃ t t', act s σ = .ok t ∧ act' s' σ = .ok t' ∧ Rel t t')
    (n : Nat) : ∀ (g : Gen) (s : S) (s' : S'), Rel s s' →
    (sysRun cfg cand act n g s).1 = (sysRun cfg cand' act' n g s').1 ∧ (sysRun cfg cand act n g s).2.1 = (sysRun cfg cand' act' n g s').2.1 := by
  induction n with
  | zero => intro g s s' _; exact ⟨rfl, rfl⟩
  | succ n ih =>
    intro g s s' hr
    rw [sysRun_succ, sysRun_succ]
    have key : (sysStep cfg cand act g s).1 = (sysStep cfg cand' act' g s').1 ∧ Rel (sysStep cfg cand act g s).2 (sysStep cfg cand' act' g s').2 := by
      unfold sysStep
      cases g.phase with
      | running =>
        have : cand s = cand' s' := by funext x σ; exact hc s s' hr x σ
        exact ⟨by simp only [this], hr⟩
      | suspended σ =>
        rcases ha s s' σ hr with ⟨e, h1, h2⟩ | ⟨t, t', h1, h2, h3⟩
        · simp only [h1, h2]; exact ⟨trivial, hr⟩
        · simp only [h1, h2]; exact ⟨trivial, h3⟩
      | finished => exact ⟨rfl, hr⟩
      | raised e => exact ⟨rfl, hr⟩
    have := ih (sysStep cfg cand act g s).1 _ _ key.2
    simp only
    rw [this.1, this.2, key.1]
    exact ⟨rfl, rfl⟩

/-- Two runs of `solve` on constraints that are equal up to the identities of their objects. -/
theorem solveRun_same {Rel : Heap → Heap → Prop} {a a' : SolveArgs} {m m' : Model} (hm : SameModel m m') {h h' : Heap}
    (hsol : a.solver = a'.solver) (hsh : a.shuffle = a'.shuffle) (hck : a.clock = a'.clock)
    (hr : List.Forall₂ (fun c c' => R c c' ∧ SameCon c c') (m.constraints ++ a.adds) (m'.constraints ++ a'.adds))
    (he : ∀ p c q p' c' q', m.constraints ++ a.adds = p ++ c :: q → m'.constraints ++ a'.adds = p' ++ c' :: q' → p.length = p'.length → ∀ σ,
      c.evaluate (compileAll a.solver.compile (p ++ [c]) h) σ = c'.evaluate (compileAll a.solver.compile (p' ++ [c']) h') σ)
    (hrel : Rel (compileAll a.solver.compile (m.constraints ++ a.adds) h) (compileAll a.solver.compile (m'.constraints ++ a'.adds) h'))
    (hev : ∀ s s', Rel s s' → ∀ c c', R c c' → c.vars = c'.vars ∧ ∀ σ, c.evaluate s σ = c'.evaluate s' σ)
    {act act' : Heap → Subst → Res Heap}
    (ha : ∀ s s' σ, Rel s s' → (∃ e, act s σ = .error e ∧ act' s' σ = .error e) ∨ ∃ t t', act s σ = .ok t ∧ act' s' σ = .ok t' ∧ Rel t t')
    (n : Nat) :
    (solveRun a m act n h).1 = (solveRun a' m' act' n h').1 ∧ (solveRun a m act n h).2.1 = (solveRun a' m' act' n h').2.1 := by
  have hcfg : a.cfg = a'.cfg := by simp [SolveArgs.cfg, hsol, hck]
  have hset := setup_same hm hr he
  have idle : ∀ (ph : Phase), (ph = .finished ∨ ∃ e, ph = .raised e) → ∀ (cand cand' : Heap → Name → Subst → Res (List Int)) s s',
      (sysRun a.cfg cand act n (Gen.idle ph) s).1 = (sysRun a.cfg cand' act' n (Gen.idle ph) s').1 ∧
      (sysRun a.cfg cand act n (Gen.idle ph) s).2.1 = (sysRun a.cfg cand' act' n (Gen.idle ph) s').2.1 := by
    intro ph hph cand cand'
    have : ∀ cand act s, (sysRun (S := Heap) a.cfg cand act n (Gen.idle ph) s).1 = [] ∧ (sysRun a.cfg cand act n (Gen.idle ph) s).2.1 = Gen.idle ph := by
      intro cand act
      induction n with
      | zero => intro s; exact ⟨rfl, rfl⟩
      | succ n ih =>
        intro s
        rw [sysRun_succ]
        have : sysStep a.cfg cand act (Gen.idle ph) s = (Gen.idle ph, s) := by
          rcases hph with rfl | ⟨e, rfl⟩ <;> rfl
        simp only [this]
        refine ⟨?_, (ih s).2⟩
        rw [(ih s).1]
        rcases hph with rfl | ⟨e, rfl⟩ <;> rfl
    intro s s'
    rw [(this cand act s).1, (this cand act s).2, (this cand' act' s').1, (this cand' act' s').2]
    exact ⟨rfl, rfl⟩
  unfold solveRun
  rw [← hcfg]
  unfold startSolve
  rw [← hm.solvable, ← hsol]
  by_cases hs0 : m.solvable = true
  · simp only [hs0, Bool.not_true, Bool.false_eq_true, if_false]
    cases hs : setup a.solver.compile m a.adds h with
    | mk H r =>
      cases hs' : setup a.solver.compile m' a'.adds h' with
      | mk H' r' =>
        rw [hs, hs'] at hset
        simp only at hset
        cases r with
        | error e => cases r' with
          | error e' => rw [show e = e' from hset]; exact idle _ (.inr ⟨_, rfl⟩) _ _ _ _
          | ok i' => exact hset.elim
        | ok i => cases r' with
          | error e' => exact hset.elim
          | ok i' =>
            simp only
            rw [orderVars_same hm (show SameInfo R i i' from hset), ← hsh, ← hck]
            rw [setup_ok_heap hs, setup_ok_heap hs']
            cases orderVars a.solver.policy a.shuffle m' i' with
            | nil => exact idle _ (.inl rfl) _ _ _ _
            | cons x xs =>
              exact sysRun_same a.cfg (fun s s' hr x σ => candidates_same hset (hev s s' hr) x σ) ha n _ _ _ hrel
  · have hs0 : m.solvable = false := by simpa using hs0
    simp only [hs0, Bool.not_false, if_true]
    exact idle _ (.inl rfl) _ _ _ _

end Satisfy
