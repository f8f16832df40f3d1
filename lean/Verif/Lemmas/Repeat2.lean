import Verif.Lemmas.Repeat
/-! The objects made by two calls of `optimize` correspond. -/

namespace Satisfy

open Props

/-- The constraints of the objectives, with the identities of their objects. -/
def Numbered : Nat → Nat → List Objective → List ObjCon → Prop
  | _, _, [], [] => True
  | N, C, o :: os, k :: ks => (∃ x y, k = ⟨o, ⟨C, .expr (boundExpr o (.param N x) (.param (N + 1) y))⟩, .param N x, .param (N + 1) y⟩) ∧
      Numbered (N + 2) (C + 1) os ks
  | _, _, _, _ => False

theorem makeConstraints_numbered (os : List Objective) : ∀ {w w' : World} {ks : List ObjCon}, NameInv w.model.vars →
    makeConstraints os w = (w', .ok ks) → Numbered w.heap.nparams w.heap.ncons os ks := by
  induction os with
  | nil =>
    intro w w' ks _ h
    simp only [makeConstraints, pure, Api.pure, Prod.mk.injEq, Except.ok.injEq] at h
    rw [← h.2]; trivial
  | cons o os ih =>
    intro w w' ks hi h
    obtain ⟨k, w1, hk, m1⟩ := makeConstraint_spec o w hi
    obtain ⟨ks2, w2, hks, m2⟩ := makeConstraints_spec os w1 m1.inv
    simp only [makeConstraints, Api.bind_apply, hk, hks, pure, Api.pure, Prod.mk.injEq, Except.ok.injEq] at h
    rw [← h.2]
    obtain ⟨x, y, hv1, hn, hb⟩ := m1.vars
    refine ⟨⟨x, y, ?_⟩, ?_⟩
    · have h1 := m1.obj
      have h2 := m1.con
      rw [hn, hb] at h2
      obtain ⟨ob, co, ns, bo⟩ := k
      simp only at h1 h2 hn hb
      subst h1 h2 hn hb
      rfl
    · have := ih m1.inv hks
      rw [m1.nparams, m1.ncons] at this
      exact this

/-- What the second optimisation finds, next to what the first one found. -/
structure Sim (N N' C C' : Nat) (len : Nat) (old : List Constraint) (s s' : Heap) : Prop where
  par0 : ∀ i < N, s.params i = s'.params i
  par1 : ∀ j < 2 * len, s.params (N + j) = s'.params (N' + j)
  fn0 : ∀ c ∈ old, ∀ σ, c.evaluate s σ = c.evaluate s' σ
  fn1 : ∀ j < len, s.fns (C + j) = s'.fns (C' + j)

theorem boundExpr_shape (o : Objective) :
    (∃ z, o.expr = .var z ∧ ∀ p q x y, boundExpr o (.param p x) (.param q y) =
      .bin .or (.param p x) (.bin o.cmp.swap.bop (.param q y) (.var z))) ∨
    ∀ p q x y, boundExpr o (.param p x) (.param q y) = .bin .or (.param p x) (.bin o.cmp.bop o.expr (.param q y)) := by
  unfold boundExpr
  cases h : o.expr with
  | var z => exact .inl ⟨z, rfl, fun _ _ _ _ => rfl⟩
  | _ => exact .inr fun _ _ _ _ => rfl

theorem pyToks_cmp (ρ : Store) (c : Cmp) (l r : Expr) :
    (Expr.bin c.bop l r).pyToks ρ = .lpar :: l.pyToks ρ ++ .op c.bop.pySym :: r.pyToks ρ ++ [.rpar] := by
  cases c <;> simp [Expr.pyToks, Cmp.bop]

theorem boundExpr_same {ρ ρ' : Store} {o : Objective} (ho : ∀ i ∈ o.expr.params, ρ i = ρ' i) {p p' q q' : Nat} (hp : ρ p = ρ' p') (hq : ρ q = ρ' q')
    (x y x' y' : Name) :
    (boundExpr o (.param p x) (.param q y)).vars = (boundExpr o (.param p' x') (.param q' y')).vars ∧
    asFunction ρ (boundExpr o (.param p x) (.param q y)) = asFunction ρ' (boundExpr o (.param p' x') (.param q' y')) ∧
    ∀ σ, (boundExpr o (.param p x) (.param q y)).eval ρ σ = (boundExpr o (.param p' x') (.param q' y')).eval ρ' σ := by
  have ht := pyToks_params ho
  have he := fun σ => eval_params ho σ
  have hv : (boundExpr o (.param p x) (.param q y)).vars = (boundExpr o (.param p' x') (.param q' y')).vars := by
    rcases boundExpr_shape o with ⟨z, hz, h⟩ | h <;> rw [h, h] <;> rfl
  have ht : (boundExpr o (.param p x) (.param q y)).pyToks ρ = (boundExpr o (.param p' x') (.param q' y')).pyToks ρ' := by
    rcases boundExpr_shape o with ⟨z, hz, h⟩ | h <;> rw [h, h] <;> simp only [Expr.pyToks, pyToks_cmp, hp, hq, ht]
  refine ⟨hv, ?_, fun σ => ?_⟩
  · unfold asFunction; rw [hv, ht]
  · rcases boundExpr_shape o with ⟨z, hz, h⟩ | h <;> rw [h, h] <;> simp only [Expr.eval, hp, hq, he]

/-! ## Recording a solution -/

theorem setBound_eq {N C : Nat} {o : Objective} {x y : Name} (v : Int) (s : Heap) :
    let e := boundExpr o (.param N x) (.param (N + 1) y)
    let ρ : Store := fun i => if i = N + 1 then v else if i = N then 0 else s.params i
    (ObjCon.setBound ⟨o, ⟨C, .expr e⟩, .param N x, .param (N + 1) y⟩ v s).params = ρ ∧
    (ObjCon.setBound ⟨o, ⟨C, .expr e⟩, .param N x, .param (N + 1) y⟩ v s).fns =
      fun i => if i = C ∧ (s.fns C).isSome = true then some (asFunction ρ e) else s.fns i := by
  intro e ρ
  refine ⟨setBound_params rfl rfl v s, ?_⟩
  show (if (s.fns C).isSome = true then Constraint.compile { s with params := ρ } ⟨C, .expr e⟩ else { s with params := ρ }).fns = _
  by_cases h : (s.fns C).isSome = true
  · rw [if_pos h]
    simp only [Constraint.compile, h, and_true]
  · rw [if_neg h]
    simp only [h, and_false, if_false, Bool.false_eq_true]

theorem onSolution_sim {N N' C C' len : Nat} {old : List Constraint} {h : Heap} (hN : h.nparams = N) (hC : h.ncons = C) (hNN : N ≤ N')
    (hCC : C ≤ C') (hold : ∀ c ∈ old, Old h c) (σ : Subst) (os : List Objective) (ho : ∀ o ∈ os, ∀ i ∈ o.expr.params, i < N) :
    ∀ (i : Nat) (ks ks' : List ObjCon), i + os.length = len → Numbered (N + 2 * i) (C + i) os ks → Numbered (N' + 2 * i) (C' + i) os ks' →
    ∀ s s', Sim N N' C C' len old s s' →
    (∃ e, onSolution ks s σ = .error e ∧ onSolution ks' s' σ = .error e) ∨
      ∃ t t', onSolution ks s σ = .ok t ∧ onSolution ks' s' σ = .ok t' ∧ Sim N N' C C' len old t t' := by
  induction os with
  | nil =>
    intro i ks ks' _ hk hk' s s' hs
    match ks, ks', hk, hk' with
    | [], [], _, _ => exact .inr ⟨s, s', rfl, rfl, hs⟩
  | cons o os ih =>
    intro i ks ks' hlen hk hk' s s' hs
    match ks, ks', hk, hk' with
    | k :: ks, k' :: ks', hk, hk' =>
      obtain ⟨⟨x, y, hk1⟩, hk2⟩ := hk
      obtain ⟨⟨x', y', hk1'⟩, hk2'⟩ := hk'
      have hpar : ∀ j ∈ o.expr.params, s.params j = s'.params j := fun j hj => hs.par0 j (ho o (by simp) j hj)
      have hev := eval_params hpar σ
      simp only [onSolution, ObjCon.addSolution]
      rw [show k.obj = o by rw [hk1], show k'.obj = o by rw [hk1'], hev]
      cases hv : o.expr.eval s'.params σ with
      | error e => exact .inl ⟨e, rfl, rfl⟩
      | ok v =>
        have hsim : Sim N N' C C' len old (k.setBound v s) (k'.setBound v s') := by
          obtain ⟨p1, f1⟩ := setBound_eq (N := N + 2 * i) (C := C + i) (o := o) (x := x) (y := y) v s
          obtain ⟨p2, f2⟩ := setBound_eq (N := N' + 2 * i) (C := C' + i) (o := o) (x := x') (y := y') v s'
          rw [← hk1] at p1 f1
          rw [← hk1'] at p2 f2
          rw [List.length_cons] at hlen
          refine ⟨?_, ?_, ?_, ?_⟩
          · intro j hj
            rw [p1, p2]
            simp only
            rw [if_neg (by omega), if_neg (by omega), if_neg (by omega), if_neg (by omega)]
            exact hs.par0 j hj
          · intro j hj
            rw [p1, p2]
            simp only
            have e1 : (N + j = N + 2 * i + 1) ↔ (N' + j = N' + 2 * i + 1) := by omega
            have e2 : (N + j = N + 2 * i) ↔ (N' + j = N' + 2 * i) := by omega
            simp only [e1, e2, hs.par1 j hj]
          · intro c hc τ
            have s1 : Steady h s (k.setBound v s) := by
              refine ⟨fun j hj => ?_, fun j hj => ?_⟩
              · rw [p1]; simp only; rw [if_neg (by omega), if_neg (by omega)]
              · rw [f1]; simp only; rw [if_neg (by omega)]
            have s2 : Steady h s' (k'.setBound v s') := by
              refine ⟨fun j hj => ?_, fun j hj => ?_⟩
              · rw [p2]; simp only; rw [if_neg (by omega), if_neg (by omega)]
              · rw [f2]; simp only; rw [if_neg (by omega)]
            rw [← steady_evaluate s1 (hold c hc), ← steady_evaluate s2 (hold c hc)]
            exact hs.fn0 c hc τ
          · intro j hj
            rw [f1, f2]
            simp only
            have e1 : (C + j = C + i) ↔ (C' + j = C' + i) := by omega
            have e2 := hs.fn1 i (by omega)
            simp only [e1, e2, hs.fn1 j hj]
            split
            · congr 1
              refine (boundExpr_same (fun i' hi' => ?_) ?_ ?_ x y x' y').2.1
              · have := ho o (by simp) i' hi'
                rw [if_neg (by omega), if_neg (by omega), if_neg (by omega), if_neg (by omega)]
                exact hs.par0 i' this
              · simp
              · simp
            · rfl
        simp only [ok_bind, pure_res]
        have e1 : N + 2 * i + 2 = N + 2 * (i + 1) := by omega
        have e2 : N' + 2 * i + 2 = N' + 2 * (i + 1) := by omega
        rw [e1, Nat.add_assoc C] at hk2
        rw [e2, Nat.add_assoc C'] at hk2'
        exact ih (fun o' ho' => ho o' (by simp [ho'])) (i + 1) ks ks' (by simp at hlen; omega) hk2 hk2' _ _ hsim

/-! ## Two calls of `optimize` -/

/-- Corresponding constraints of objectives. -/
def NewCon (N N' C C' len : Nat) (os : List Objective) (c c' : Constraint) : Prop :=
  ∃ j < len, ∃ o ∈ os, ∃ x y x' y', c = ⟨C + j, .expr (boundExpr o (.param (N + 2 * j) x) (.param (N + 2 * j + 1) y))⟩ ∧
    c' = ⟨C' + j, .expr (boundExpr o (.param (N' + 2 * j) x') (.param (N' + 2 * j + 1) y'))⟩

theorem numbered_forall {N N' C C' len : Nat} {all : List Objective} (os : List Objective) (hos : ∀ o ∈ os, o ∈ all) :
    ∀ (i : Nat) (ks ks' : List ObjCon), i + os.length = len → Numbered (N + 2 * i) (C + i) os ks → Numbered (N' + 2 * i) (C' + i) os ks' →
    List.Forall₂ (NewCon N N' C C' len all) (ks.map (·.con)) (ks'.map (·.con)) := by
  induction os with
  | nil =>
    intro i ks ks' _ hk hk'
    match ks, ks', hk, hk' with
    | [], [], _, _ => exact .nil
  | cons o os ih =>
    intro i ks ks' hlen hk hk'
    match ks, ks', hk, hk' with
    | k :: ks, k' :: ks', hk, hk' =>
      obtain ⟨⟨x, y, hk1⟩, hk2⟩ := hk
      obtain ⟨⟨x', y', hk1'⟩, hk2'⟩ := hk'
      rw [List.length_cons] at hlen
      refine .cons ⟨i, by omega, o, hos o (by simp), x, y, x', y', by rw [hk1], by rw [hk1']⟩ ?_
      have e1 : N + 2 * i + 2 = N + 2 * (i + 1) := by omega
      have e2 : N' + 2 * i + 2 = N' + 2 * (i + 1) := by omega
      rw [e1, Nat.add_assoc C] at hk2
      rw [e2, Nat.add_assoc C'] at hk2'
      exact ih (fun o' ho' => hos o' (by simp [ho'])) (i + 1) ks ks' (by omega) hk2 hk2'

theorem numbered_get (os : List Objective) : ∀ {N C : Nat} {ks : List ObjCon}, Numbered N C os ks → ∀ j < os.length,
    ∃ k ∈ ks, ∃ o x y, os[j]? = some o ∧ k = ⟨o, ⟨C + j, .expr (boundExpr o (.param (N + 2 * j) x) (.param (N + 2 * j + 1) y))⟩, .param (N + 2 * j) x,
      .param (N + 2 * j + 1) y⟩ := by
  induction os with
  | nil => intro N C ks _ j hj; simp at hj
  | cons o os ih =>
    intro N C ks hk j hj
    match ks, hk with
    | k :: ks, hk =>
      obtain ⟨⟨x, y, hk1⟩, hk2⟩ := hk
      cases j with
      | zero => exact ⟨k, by simp, o, x, y, rfl, hk1⟩
      | succ j =>
        obtain ⟨k', hk', o', x', y', hj', he⟩ := ih hk2 j (by simpa using hj)
        refine ⟨k', by simp [hk'], o', x', y', by simpa using hj', ?_⟩
        have e1 : N + 2 + 2 * j = N + 2 * (j + 1) := by omega
        have e2 : C + 1 + j = C + (j + 1) := by omega
        rw [e1, e2] at he
        exact he

theorem numbered_params {w w' : World} {os : List Objective} {ks : List ObjCon} (hm : Made w os ks w')
    (hk : Numbered w.heap.nparams w.heap.ncons os ks) : ∀ j < 2 * os.length, w'.heap.params (w.heap.nparams + j) = if j % 2 = 0 then 1 else 0 := by
  intro j hj
  obtain ⟨k, hmem, o, x, y, _, he⟩ := numbered_get os hk (j / 2) (by omega)
  have f := hm.fresh k hmem
  obtain ⟨p, z, h1, _, _, h2⟩ := f.notSet
  obtain ⟨q, u, g1, _, _, g2⟩ := f.bound
  rw [he] at h1 g1
  simp only [Expr.param.injEq] at h1 g1
  by_cases hpar : j % 2 = 0
  · rw [if_pos hpar, ← h2, ← h1.1]; congr 1; omega
  · rw [if_neg hpar, ← g2, ← g1.1]; congr 1; omega

theorem made_ids {w w' : World} {os : List Objective} {ks : List ObjCon} (hm : Made w os ks w') {old : List Constraint}
    (hid : SameIds old) (hlt : ∀ c ∈ old, c.id < w.heap.ncons) : SameIds (old ++ ks.map (·.con)) := by
  have hnew : ∀ c ∈ ks.map (·.con), w.heap.ncons ≤ c.id := by
    intro c hc
    obtain ⟨k, hk, rfl⟩ := List.mem_map.1 hc
    exact (hm.fresh k hk).idLo
  intro c hc c' hc' he
  rcases List.mem_append.1 hc with h | h <;> rcases List.mem_append.1 hc' with h' | h'
  · exact hid c h c' h' he
  · have := hlt c h; have := hnew c' h'; omega
  · have := hlt c' h'; have := hnew c h; omega
  · obtain ⟨k, hk, rfl⟩ := List.mem_map.1 h
    obtain ⟨k', hk', rfl⟩ := List.mem_map.1 h'
    rw [List.inj_on_of_nodup_map hm.ids hk hk' he]

theorem forall₂_at {α : Type} {P : α → α → Prop} {l l' : List α} (h : List.Forall₂ P l l') : ∀ {p c q p' c' q'}, l = p ++ c :: q → l' = p' ++ c' :: q' →
    p.length = p'.length → P c c' := by
  induction h with
  | nil => intro p c q p' c' q' h1; simp at h1
  | cons hr _ ih =>
    intro p c q p' c' q' h1 h2 hl
    cases p with
    | nil =>
      cases p' with
      | nil => simp at h1 h2; rw [← h1.1, ← h2.1]; exact hr
      | cons _ _ => simp at hl
    | cons _ _ =>
      cases p' with
      | nil => simp at hl
      | cons _ _ =>
        simp at h1 h2 hl
        exact ih h1.2 h2.2 hl

theorem newCon_evaluate {N N' C C' len : Nat} {os : List Objective} (ho : ∀ o ∈ os, ∀ i ∈ o.expr.params, i < N) {c c' : Constraint}
    (hc : NewCon N N' C C' len os c c') {s s' : Heap} (hp0 : ∀ i < N, s.params i = s'.params i)
    (hp1 : ∀ j < 2 * len, s.params (N + j) = s'.params (N' + j)) :
    SameCon c c' ∧ ((s.fns c.id = s'.fns c'.id) ∨ (FnNow s c ∧ FnNow s' c') → s.fns c.id = s'.fns c'.id ∧ ∀ σ, c.evaluate s σ = c'.evaluate s' σ) := by
  obtain ⟨j, hj, o, hmem, x, y, x', y', rfl, rfl⟩ := hc
  obtain ⟨b1, b2, b3⟩ := boundExpr_same (ρ := s.params) (ρ' := s'.params) (fun i hi => hp0 i (ho o hmem i hi))
    (hp1 (2 * j) (by omega)) (hp1 (2 * j + 1) (by omega)) x y x' y'
  refine ⟨⟨b1, rfl⟩, ?_⟩
  intro h
  have hfn : s.fns (C + j) = s'.fns (C' + j) := by
    rcases h with h | ⟨h, h'⟩
    · exact h
    · rw [h _ rfl, h' _ rfl]; exact congrArg some b2
  refine ⟨hfn, fun σ => ?_⟩
  simp only [Constraint.evaluate, hfn]
  cases s'.fns (C' + j) with
  | none => exact b3 σ
  | some f => rfl

/-- **The same optimisation again**, in a world with the same variables, constraints and parameters, runs in the same way. -/
theorem optimizeRun_again {a : SolveArgs} {os : List Objective} {w v : World} (hi : NameInv w.model.vars)
    (hids : SameIds (w.model.constraints ++ a.adds)) (hold : ∀ c ∈ w.model.constraints ++ a.adds, Old w.heap c)
    (ho : ∀ o ∈ os, ∀ i ∈ o.expr.params, i < w.heap.nparams) (hk : Kept w v)
    (hf : a.solver.compile = false → ∀ i < w.heap.ncons, v.heap.fns i = w.heap.fns i) (n : Nat) :
    (optimizeRun a os n w).1 = (optimizeRun a os n v).1 ∧ (optimizeRun a os n w).2.1 = (optimizeRun a os n v).2.1 := by
  obtain ⟨ks, w', hmk, hm⟩ := makeConstraints_spec os w hi
  obtain ⟨ks', v', hmk', hm'⟩ := makeConstraints_spec os v hk.inv
  have hn := makeConstraints_numbered os hi hmk
  have hn' := makeConstraints_numbered os hk.inv hmk'
  rw [optimizeRun_eq hmk, optimizeRun_eq hmk']
  simp only
  have hN := hk.nparams
  have hC := hk.ncons
  have hp0 : ∀ i < w.heap.nparams, w'.heap.params i = v'.heap.params i := fun i hi => by
    rw [hm.params i hi, hm'.params i (by omega), hk.params i hi]
  have hp1 : ∀ j < 2 * os.length, w'.heap.params (w.heap.nparams + j) = v'.heap.params (v.heap.nparams + j) := fun j hj => by
    rw [numbered_params hm hn j hj, numbered_params hm' hn' j hj]
  have hL : w'.model.constraints ++ (a.withObjectives ks).adds = (w.model.constraints ++ a.adds) ++ ks.map (·.con) := by
    simp [SolveArgs.withObjectives, hm.cons]
  have hL' : v'.model.constraints ++ (a.withObjectives ks').adds = (w.model.constraints ++ a.adds) ++ ks'.map (·.con) := by
    simp [SolveArgs.withObjectives, hm'.cons, hk.cons]
  have hid : SameIds (w'.model.constraints ++ (a.withObjectives ks).adds) := by
    rw [hL]; exact made_ids hm hids (fun c hc => (hold c hc).1)
  have hid' : SameIds (v'.model.constraints ++ (a.withObjectives ks').adds) := by
    rw [hL']; exact made_ids hm' hids (fun c hc => by have := (hold c hc).1; omega)
  -- corresponding constraints
  let R : Constraint → Constraint → Prop := fun c c' => (c = c' ∧ c ∈ w.model.constraints ++ a.adds) ∨
    NewCon w.heap.nparams v.heap.nparams w.heap.ncons v.heap.ncons os.length os c c'
  have hpair : List.Forall₂ (fun c c' => R c c' ∧ SameCon c c') (w'.model.constraints ++ (a.withObjectives ks).adds)
      (v'.model.constraints ++ (a.withObjectives ks').adds) := by
    rw [hL, hL']
    refine List.rel_append ?_ ?_
    · rw [List.forall₂_same]
      exact fun c hc => ⟨.inl ⟨rfl, hc⟩, rfl, rfl⟩
    · exact (numbered_forall os (fun _ h => h) 0 ks ks' (by simp) (by simpa using hn) (by simpa using hn')).imp
        (fun c c' h => ⟨.inr h, (newCon_evaluate ho h hp0 hp1).1⟩)
  have hnone : ∀ c c', NewCon w.heap.nparams v.heap.nparams w.heap.ncons v.heap.ncons os.length os c c' →
      w'.heap.fns c.id = v'.heap.fns c'.id := by
    rintro c c' ⟨j, hj, o, _, x, y, x', y', rfl, rfl⟩
    obtain ⟨k, hk1, _, _, _, _, hk2⟩ := numbered_get os hn j hj
    obtain ⟨k', hk1', _, _, _, _, hk2'⟩ := numbered_get os hn' j hj
    have f := (hm.fresh k hk1).fns
    have f' := (hm'.fresh k' hk1').fns
    rw [hk2] at f; rw [hk2'] at f'
    exact f.trans f'.symm
  -- they evaluate in the same way
  have hsame : ∀ c c', R c c' → ∀ s s' : Heap, s.params = w'.heap.params → s'.params = v'.heap.params →
      (a.solver.compile = true → FnNow s c ∧ FnNow s' c') → (a.solver.compile = false → s = w'.heap ∧ s' = v'.heap) →
      ∀ σ, c.evaluate s σ = c'.evaluate s' σ := by
    intro c c' hR s s' e1 e2 h1 h2 σ
    rcases hR with ⟨rfl, hc⟩ | hR
    · have hpar : ∀ e, c.kind = .expr e → ∀ i ∈ e.params, s.params i = s'.params i := fun e he i hi => by
        rw [e1, e2]; exact hp0 i ((hold c hc).2 e he i hi)
      cases hcomp : a.solver.compile with
      | true => exact evaluate_now_params (h1 hcomp).1 (h1 hcomp).2 hpar σ
      | false =>
        obtain ⟨rfl, rfl⟩ := h2 hcomp
        have := (hold c hc).1
        refine evaluate_params ?_ hpar σ
        rw [hm.fns _ this, hm'.fns _ (by omega), hf hcomp _ this]
    · refine ((newCon_evaluate ho hR (by rw [e1, e2]; exact hp0) (by rw [e1, e2]; exact hp1)).2 ?_).2 σ
      cases hcomp : a.solver.compile with
      | true => exact .inr (h1 hcomp)
      | false => obtain ⟨rfl, rfl⟩ := h2 hcomp; exact .inl (hnone c c' hR)
  have hsm : SameModel w'.model v'.model :=
    ⟨by rw [made_pureVars hm, made_pureVars hm', hk.pure], by rw [hm.solvable, hm'.solvable, hk.solvable]⟩
  refine solveRun_same (a := a.withObjectives ks) (a' := a.withObjectives ks') (R := R) (Rel := Sim w.heap.nparams v.heap.nparams w.heap.ncons v.heap.ncons os.length (w.model.constraints ++ a.adds))
    hsm rfl rfl rfl hpair ?_ ?_ ?_ ?_ n
  · intro p c q p' c' q' h1 h2 hl σ
    refine hsame c c' (forall₂_at hpair h1 h2 hl).1 _ _ (compileAll_params _ _ _) (compileAll_params _ _ _) ?_ ?_ σ
    · intro hcomp
      rw [show (a.withObjectives ks).solver.compile = true from hcomp]
      have s1 : SameIds (p ++ [c]) := sameIds_sub hid (by rw [h1]; intro d hd; simp at hd ⊢; rcases hd with h | h <;> simp [h])
      have s2 : SameIds (p' ++ [c']) := sameIds_sub hid' (by rw [h2]; intro d hd; simp at hd ⊢; rcases hd with h | h <;> simp [h])
      exact ⟨compileAll_now s1 c (by simp), compileAll_now s2 c' (by simp)⟩
    · intro hcomp
      rw [show (a.withObjectives ks).solver.compile = false from hcomp]
      exact ⟨rfl, rfl⟩
  · have hnow : ∀ c c', c ∈ w'.model.constraints ++ (a.withObjectives ks).adds → c' ∈ v'.model.constraints ++ (a.withObjectives ks').adds →
        a.solver.compile = true →
        FnNow (compileAll (a.withObjectives ks).solver.compile (w'.model.constraints ++ (a.withObjectives ks).adds) w'.heap) c ∧
        FnNow (compileAll (a.withObjectives ks).solver.compile (v'.model.constraints ++ (a.withObjectives ks').adds) v'.heap) c' := by
      intro c c' h1 h2 hcomp
      rw [show (a.withObjectives ks).solver.compile = true from hcomp]
      exact ⟨compileAll_now hid c h1, compileAll_now hid' c' h2⟩
    have hstay : a.solver.compile = false →
        compileAll (a.withObjectives ks).solver.compile (w'.model.constraints ++ (a.withObjectives ks).adds) w'.heap = w'.heap ∧
        compileAll (a.withObjectives ks).solver.compile (v'.model.constraints ++ (a.withObjectives ks').adds) v'.heap = v'.heap := by
      intro hcomp
      rw [show (a.withObjectives ks).solver.compile = false from hcomp]
      exact ⟨rfl, rfl⟩
    refine ⟨?_, ?_, ?_, ?_⟩
    · simp only [compileAll_params]; exact hp0
    · simp only [compileAll_params]; exact hp1
    · intro c hc σ
      refine hsame c c (.inl ⟨rfl, hc⟩) _ _ (compileAll_params _ _ _) (compileAll_params _ _ _) (hnow c c ?_ ?_) hstay σ
      · rw [hL]; exact List.mem_append_left _ hc
      · rw [hL']; exact List.mem_append_left _ hc
    · intro j hj
      obtain ⟨k, hk1, o, x, y, ho1, hk2⟩ := numbered_get os hn j hj
      obtain ⟨k', hk1', o', x', y', ho2, hk2'⟩ := numbered_get os hn' j hj
      cases hcomp : a.solver.compile with
      | false =>
        obtain ⟨e1, e2⟩ := hstay hcomp
        rw [e1, e2]
        have f := (hm.fresh k hk1).fns
        have f' := (hm'.fresh k' hk1').fns
        rw [hk2] at f; rw [hk2'] at f'
        exact f.trans f'.symm
      | true =>
        rw [ho1] at ho2
        cases ho2
        have hR : NewCon w.heap.nparams v.heap.nparams w.heap.ncons v.heap.ncons os.length os k.con k'.con :=
          ⟨j, hj, o, List.mem_of_getElem? ho1, x, y, x', y', by rw [hk2], by rw [hk2']⟩
        have := ((newCon_evaluate ho hR (s := compileAll (a.withObjectives ks).solver.compile (w'.model.constraints ++ (a.withObjectives ks).adds) w'.heap)
          (s' := compileAll (a.withObjectives ks).solver.compile (v'.model.constraints ++ (a.withObjectives ks').adds) v'.heap)
          (by simp only [compileAll_params]; exact hp0) (by simp only [compileAll_params]; exact hp1)).2 (.inr (hnow _ _ ?_ ?_ hcomp))).1
        · rw [hk2, hk2'] at this; exact this
        · rw [hL]; exact List.mem_append_right _ (List.mem_map.2 ⟨k, hk1, rfl⟩)
        · rw [hL']; exact List.mem_append_right _ (List.mem_map.2 ⟨k', hk1', rfl⟩)
  · intro s s' hs c c' hR
    rcases hR with ⟨rfl, hc⟩ | hR
    · exact ⟨rfl, fun σ => hs.fn0 c hc σ⟩
    · have hn := newCon_evaluate ho hR hs.par0 hs.par1
      refine ⟨hn.1.vars, (hn.2 (.inl ?_)).2⟩
      obtain ⟨j, hj, o, _, x, y, x', y', rfl, rfl⟩ := hR
      exact hs.fn1 j hj
  · intro s s' σ hs
    exact onSolution_sim rfl rfl hN hC hold σ os ho 0 ks ks' (by simp) (by simpa using hn) (by simpa using hn') s s' hs

end Satisfy
