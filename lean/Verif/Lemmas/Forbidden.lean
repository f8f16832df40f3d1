import Verif.Forbidden
import Verif.Lemmas.Stack
/-! Lemmas on `_solve_forbidden`: as long as there is no solution it does what `solve` does. -/

namespace Satisfy

/-- `forbidden[c]` holds exactly the values that `σ` gives to the neighbours of `c`. -/
def Exactly (info : Info) (f : Forbidden) (c : Name) (σ : Subst) : Prop :=
  ∀ y v, (f c).get? y = some v ↔ y ∈ info.ad c ∧ σ.get? y = some v

/-- The frames of the stack. -/
def Frames (info : Info) (f : Forbidden) : List (List Name × Subst) → Prop
  | [] => True
  | (xs, σ) :: K =>
    (∃ x rest, xs = x :: rest ∧ Exactly info f x σ) ∧ (∀ z ∈ xs, σ.get? z = none) ∧ xs.Nodup ∧
    (match K with | [] => True | (ys, τ) :: _ => ∃ w v, ys = w :: xs ∧ σ = τ.set w v) ∧ Frames info f K

/-- The state at the head of the loop: what `forbidden` holds for the unbound variables, too. The variable `x` on top may have left
entries. -/
structure FInv (info : Info) (s : Search) (f : Forbidden) : Prop where
  frames : Frames info f s.stack
  nodup : ∀ c, (f c).keys.Nodup
  top : ∀ x rest σ K, s.stack = (x :: rest, σ) :: K → ∀ c ∈ rest,
    (∀ y, y ≠ x → ∀ v, (f c).get? y = some v ↔ y ∈ info.ad c ∧ σ.get? y = some v) ∧ ((f c).get? x ≠ none → c ∈ info.ad x)

/-- All-different neighbourhood. -/
structure Nbr (info : Info) : Prop where
  sym : ∀ x y, y ∈ info.ad x → x ∈ info.ad y
  irr : ∀ x, x ∉ info.ad x

theorem Frames.congr {info : Info} {f f' : Forbidden} : ∀ {K : List (List Name × Subst)},
    (∀ p ∈ K, ∀ x rest, p.1 = x :: rest → Exactly info f x p.2 → Exactly info f' x p.2) → Frames info f K → Frames info f' K
  | [], _, _ => trivial
  | (xs, σ) :: K, hh, ⟨⟨x, rest, he, hx⟩, h2, h3, h4, h5⟩ =>
    ⟨⟨x, rest, he, hh _ List.mem_cons_self x rest he hx⟩, h2, h3, h4,
      Frames.congr (fun p hp => hh p (List.mem_cons_of_mem _ hp)) h5⟩

/-- What is unbound on top is unbound below. -/
theorem Frames.unbound {info : Info} {f : Forbidden} {z : Name} : ∀ {K : List (List Name × Subst)} {xs : List Name} {σ : Subst},
    Frames info f ((xs, σ) :: K) → σ.get? z = none → ∀ p ∈ (xs, σ) :: K, p.2.get? z = none
  | [], xs, σ, _, hz, p, hp => by
    rw [List.mem_singleton] at hp; subst hp; exact hz
  | (ys, τ) :: K, xs, σ, ⟨_, _, _, ⟨w, v, _, he⟩, h5⟩, hz, p, hp => by
    rcases List.mem_cons.1 hp with rfl | hp
    · exact hz
    · refine Frames.unbound h5 ?_ p hp
      rw [he, Dict.get?_set] at hz
      split at hz
      · cases hz
      · exact hz

/-- What comes behind the head of the top does not head a frame. -/
theorem Frames.heads {info : Info} {f : Forbidden} {rest : List Name} : ∀ {K : List (List Name × Subst)} {xs : List Name} {σ : Subst},
    Frames info f ((xs, σ) :: K) → (∀ x l, xs = x :: l → ∀ c ∈ rest, c ∈ l) → ∀ p ∈ (xs, σ) :: K, ∀ x l, p.1 = x :: l → x ∉ rest
  | K, xs, σ, ⟨hx, hb, hn, hk, hK⟩, hr, p, hp, x, l, he => by
    rcases List.mem_cons.1 hp with rfl | hp
    · simp only at he
      rw [he, List.nodup_cons] at hn
      exact fun hc => hn.1 (hr x l he x hc)
    · match K, hk, hK, hp with
      | (ys, τ) :: K, ⟨w, v, hw, _⟩, hK, hp =>
        refine Frames.heads (rest := rest) hK ?_ p hp x l he
        intro x' l' he' c hc
        rw [hw] at he'
        cases he'
        obtain ⟨x0, l0, e0, _⟩ := hx
        rw [e0]
        exact List.mem_cons_of_mem _ (hr x0 l0 e0 c hc)

theorem Forbidden.pop_nodup {f : Forbidden} (h : ∀ c, (f c).keys.Nodup) (x : Name) (ad : List Name) (c : Name) : (f.pop x ad c).keys.Nodup := by
  unfold Forbidden.pop
  split
  · exact (h c).sublist (Dict.erase_sublist _ _)
  · exact h c

theorem Forbidden.pop_ne {f : Forbidden} {x y : Name} {ad : List Name} {c : Name} (hy : x ≠ y) : (f.pop x ad c).get? y = (f c).get? y := by
  unfold Forbidden.pop
  split
  · exact Dict.get?_erase_ne hy
  · rfl

/-- After the first lines of the loop body (solver.py:353-354). -/
theorem FInv.popped {info : Info} {s : Search} {f : Forbidden} (h : FInv info s f) {x : Name} {rest : List Name} {σ : Subst}
    {K : List (List Name × Subst)} (hs : s.stack = (x :: rest, σ) :: K) :
    Frames info (f.pop x (info.ad x)) s.stack ∧ (∀ c, (f.pop x (info.ad x) c).keys.Nodup) ∧
      ∀ c ∈ rest, Exactly info (f.pop x (info.ad x)) c σ := by
  have hfr := h.frames
  rw [hs] at hfr
  have hx : σ.get? x = none := hfr.2.1 x List.mem_cons_self
  refine ⟨?_, fun c => Forbidden.pop_nodup h.nodup _ _ c, ?_⟩
  · rw [hs]
    refine Frames.congr ?_ hfr
    intro p hp z l he hz y v
    by_cases hy : x = y
    · subst hy
      have h1 : p.2.get? x = none := Frames.unbound hfr hx p hp
      have h2 : (f z).get? x = none := by
        cases hg : (f z).get? x with
        | none => rfl
        | some u => rw [((hz x u).1 hg).2] at h1; cases h1
      have h3 : (f.pop x (info.ad x) z).get? x = none := by
        unfold Forbidden.pop
        split
        · exact Dict.get?_erase_self (h.nodup z)
        · exact h2
      rw [h1, h3]
      simp
    · rw [Forbidden.pop_ne hy]; exact hz y v
  · intro c hc y v
    obtain ⟨h1, h2⟩ := h.top x rest σ K hs c hc
    by_cases hy : x = y
    · subst hy
      have h3 : (f.pop x (info.ad x) c).get? x = none := by
        unfold Forbidden.pop
        split
        · exact Dict.get?_erase_self (h.nodup c)
        · rename_i hca
          cases hg : (f c).get? x with
          | none => rfl
          | some u => exact absurd (h2 (by rw [hg]; simp)) hca
      rw [h3, hx]; simp
    · rw [Forbidden.pop_ne hy]; exact h1 y (fun e => hy e.symm) v

/-- The candidates are those of `solve`. -/
theorem fCandidates_eq {info : Info} (hN : Nbr info) {h : Heap} {f : Forbidden} {x : Name} {σ : Subst} (hf : Exactly info f x σ)
    (hn : (f x).keys.Nodup) : fCandidates info h f x σ = candidates info h x σ := by
  unfold fCandidates candidates
  cases info.vars.get? x with
  | none => rfl
  | some d =>
    simp only
    have key : ∀ v, v ∈ (f x).map (·.2) ↔ (info.ad x).any (fun y => (σ.set x v).get? y = some v) = true := by
      intro v
      simp only [List.mem_map, List.any_eq_true, decide_eq_true_eq]
      constructor
      · rintro ⟨⟨y, u⟩, hm, rfl⟩
        obtain ⟨h1, h2⟩ := (hf y u).1 (Dict.get?_of_mem hn hm)
        refine ⟨y, h1, ?_⟩
        rw [Dict.get?_set_ne _ _ (fun e => hN.irr x (by rw [e]; rw [e] at h1; exact h1)), h2]
      · rintro ⟨y, h1, h2⟩
        rw [Dict.get?_set_ne _ _ (fun e => hN.irr x (by rw [e]; rw [e] at h1; exact h1))] at h2
        exact ⟨(y, v), Dict.mem_of_get? ((hf y v).2 ⟨h1, h2⟩), rfl⟩
    induction d with
    | nil => rfl
    | cons v d ih =>
      have : fAcceptable h info x σ ((f x).map (·.2)) v = acceptable h info x σ v := by
        unfold acceptable fAcceptable
        by_cases hv : v ∈ (f x).map (·.2)
        · rw [if_pos hv, if_pos ((key v).1 hv)]
        · rw [if_neg hv, if_neg (fun e => hv ((key v).2 e))]
      rw [fCandLoop, candLoop, this, ih]

/-- One pass through the loop body: the same as that of `solve`. -/
theorem fStep_eq {info : Info} (hN : Nbr info) {h : Heap} {s : Search} {f : Forbidden} (hf : FInv info s f) :
    match s.step (candidates info h) with
    | .silent s' => ∃ f', fStep info h s f = .silent s' f' ∧ FInv info s' f'
    | .yield σ s' => ∃ f', fStep info h s f = .yield σ s' f'
    | .done => fStep info h s f = .done
    | .raised e => fStep info h s f = .raised e := by
  obtain ⟨stack, doms⟩ := s
  match stack, hf with
  | [], _ => rfl
  | ([], σ) :: K, hf => rfl
  | (x :: rest, σ) :: K, hf =>
    obtain ⟨hfr, hnd, hrest⟩ := hf.popped rfl
    simp only at hfr
    have hxe : Exactly info (f.pop x (info.ad x)) x σ := by
      obtain ⟨⟨x', r', e, hx⟩, _⟩ := hfr
      cases e; exact hx
    -- going back
    have hback : ∀ D, FInv info ⟨K, D⟩ (f.pop x (info.ad x)) := by
      intro D
      refine ⟨hfr.2.2.2.2, hnd, ?_⟩
      intro w l τ K' hK c hc
      simp only at hK
      subst hK
      obtain ⟨w', v, hw, hσ⟩ := hfr.2.2.2.1
      cases hw
      have hce : Exactly info (f.pop x (info.ad x)) c σ := by
        rcases List.mem_cons.1 hc with rfl | hc
        · exact hxe
        · exact hrest c hc
      refine ⟨fun y hy v' => ?_, fun hne => ?_⟩
      · rw [hce y v', hσ, Dict.get?_set_ne _ _ (fun e => hy e.symm)]
      · obtain ⟨u, hu⟩ := Option.ne_none_iff_exists'.1 hne
        exact hN.sym c w ((hce w u).1 hu).1
    -- taking a value
    have htake : ∀ v vs, match Search.take ⟨(x :: rest, σ) :: K, doms⟩ x rest σ v vs with
        | .silent s' => ∃ f', fTake ⟨(x :: rest, σ) :: K, doms⟩ (f.pop x (info.ad x)) (info.ad x) x rest σ v vs = .silent s' f' ∧ FInv info s' f'
        | .yield τ s' => ∃ f', fTake ⟨(x :: rest, σ) :: K, doms⟩ (f.pop x (info.ad x)) (info.ad x) x rest σ v vs = .yield τ s' f'
        | .done => fTake ⟨(x :: rest, σ) :: K, doms⟩ (f.pop x (info.ad x)) (info.ad x) x rest σ v vs = .done
        | .raised e => fTake ⟨(x :: rest, σ) :: K, doms⟩ (f.pop x (info.ad x)) (info.ad x) x rest σ v vs = .raised e := by
      intro v vs
      match rest, hfr, hrest with
      | [], _, _ => exact ⟨_, rfl⟩
      | r :: rs, hfr, hrest =>
        refine ⟨_, rfl, ?_⟩
        obtain ⟨_, hub, hnodup, _, _⟩ := hfr
        rw [List.nodup_cons] at hnodup
        have hput : ∀ c ∈ r :: rs, Exactly info ((f.pop x (info.ad x)).put x v (info.ad x) (r :: rs)) c (σ.set x v) := by
          intro c hc y u
          have he := hrest c hc y u
          unfold Forbidden.put
          by_cases hy : x = y
          · subst hy
            rw [Dict.get?_set_self]
            by_cases hca : c ∈ info.ad x
            · rw [if_pos ⟨hca, hc⟩, Dict.get?_set_self]
              exact ⟨fun e => ⟨hN.sym x c hca, e⟩, fun e => e.2⟩
            · rw [if_neg (fun e => hca e.1)]
              constructor
              · intro e; exact absurd (hN.sym c x (he.1 e).1) hca
              · intro e; exact absurd (hN.sym c x e.1) hca
          · rw [Dict.get?_set_ne _ _ hy]
            split
            · rw [Dict.get?_set_ne _ _ hy]; exact he
            · exact he
        have hunb : ∀ z ∈ r :: rs, (σ.set x v).get? z = none := by
          intro z hz
          rw [Dict.get?_set_ne _ _ (fun e => hnodup.1 (by rw [e]; exact hz))]
          exact hub z (List.mem_cons_of_mem _ hz)
        refine ⟨⟨⟨r, rs, rfl, hput r List.mem_cons_self⟩, hunb, hnodup.2, ⟨x, v, rfl, rfl⟩, ?_⟩, ?_, ?_⟩
        · have hfr' : Frames info (f.pop x (info.ad x)) ((x :: r :: rs, σ) :: K) := (hf.popped rfl).1
          refine Frames.congr ?_ hfr'
          intro p hp z l hz he
          have : z ∉ r :: rs := Frames.heads hfr' (fun x' l' e c hc => by cases e; exact hc) p hp z l hz
          intro y u
          unfold Forbidden.put
          rw [if_neg (fun e => this e.2)]
          exact he y u
        · intro c
          unfold Forbidden.put
          split
          · exact Dict.nodup_set (hnd c) _ _
          · exact hnd c
        · intro x' l' τ K' e c hc
          simp only [List.cons.injEq, Prod.mk.injEq] at e
          obtain ⟨⟨⟨rfl, rfl⟩, rfl⟩, _⟩ := e
          have he := hput c (List.mem_cons_of_mem _ hc)
          refine ⟨fun y _ u => he y u, fun hne => ?_⟩
          obtain ⟨u, hu⟩ := Option.ne_none_iff_exists'.1 hne
          have := ((he r u).1 hu).2
          rw [hunb r List.mem_cons_self] at this
          cases this
    unfold Search.step fStep
    simp only [fCandidates_eq hN hxe (hnd x)]
    cases hd : doms.get? x with
    | none =>
      simp only
      cases hc : candidates info h x σ with
      | error e => rfl
      | ok l =>
        cases l with
        | nil => exact ⟨_, rfl, hback _⟩
        | cons v vs => exact htake v vs
    | some l =>
      cases l with
      | nil => exact ⟨_, rfl, hback _⟩
      | cons v vs => exact htake v vs

/-- The state of `_solve_forbidden` and that of `solve`. -/
structure FSame (i : Option Interrupt) (f : FGen) (g : Gen) : Prop where
  phase : f.phase = g.phase
  interrupt : f.interrupt = g.interrupt.or i

/-- … while running. -/
structure FRunning (info : Info) (i : Option Interrupt) (f : FGen) (g : Gen) : Prop extends FSame i f g where
  run : g.phase = .running
  search : f.search = g.search
  timer : f.timer = g.timer
  tick : f.tick = g.tick
  inv : FInv info f.search f.forb
  int : g.interrupt = none

theorem loop_same {info : Info} (hN : Nbr info) {i : Option Interrupt} {f : FGen} {g : Gen} (hs : FRunning info i f g) (cfg : RunCfg) (h : Heap) :
    FRunning info i (f.loop cfg info h) (g.loop cfg (candidates info h)) ∨
      (FSame i (f.loop cfg info h) (g.loop cfg (candidates info h)) ∧ (g.loop cfg (candidates info h)).phase ≠ .running) := by
  obtain ⟨fs, ff, ft, fk, fi, fp⟩ := f
  obtain ⟨gs, gt, gk, gn, gi, gp⟩ := g
  obtain ⟨⟨h1, h2⟩, h3, h4, h5, h6, h7, h8⟩ := hs
  simp only at h1 h2 h3 h4 h5 h6 h7 h8
  subst h1 h4 h5 h6 h8 h3
  unfold FGen.loop Gen.loop
  simp only
  by_cases hemp : fs.stack.isEmpty = true
  · simp only [hemp, if_true]
    exact .inr ⟨⟨rfl, h2⟩, by simp⟩
  · simp only [hemp, Bool.false_eq_true, if_false]
    have hto : ∀ n, Gen.timedOut cfg ⟨fs, ft, fk, n, none, .running⟩ = FGen.timedOut cfg ⟨fs, ff, ft, fk, fi, .running⟩ := fun _ => rfl
    rw [hto]
    cases htd : FGen.timedOut cfg ⟨fs, ff, ft, fk, fi, .running⟩ with
    | true =>
      simp only [if_true]
      have : ∃ t, ft.abort (cfg.clock (fk + 1)) = .ok t := by
        unfold Timer.abort
        split
        · rename_i hr
          obtain ⟨s, hs⟩ := Option.isSome_iff_exists.1 hr
          unfold Timer.doStop
          rw [hs]; exact ⟨_, rfl⟩
        · exact ⟨_, rfl⟩
      obtain ⟨t, ht⟩ := this
      rw [ht]
      exact .inr ⟨⟨rfl, rfl⟩, by simp⟩
    | false =>
      simp only [Bool.false_eq_true, if_false]
      have hst := fStep_eq hN (h := h) h7
      have main : ∀ k, FRunning info i
          (match fStep info h fs ff with
            | .done => (⟨fs, ff, ft, k, fi, .finished⟩ : FGen)
            | .raised e => ⟨fs, ff, ft, k, fi, .raised e⟩
            | .silent s f => ⟨s, f, ft, k, fi, .running⟩
            | .yield σ s f => match ft.doStop (cfg.clock k) with
              | .ok t => ⟨s, f, t, k + 1, fi, .suspended σ⟩
              | .error e => ⟨fs, ff, ft, k, fi, .raised e⟩)
          (match fs.step (candidates info h) with
            | .done => (⟨fs, ft, k, gn, none, .finished⟩ : Gen)
            | .raised e => ⟨fs, ft, k, gn, none, .raised e⟩
            | .silent s => ⟨s, ft, k, gn, none, .running⟩
            | .yield σ s => (⟨fs, ft, k, gn, none, .running⟩ : Gen).withTimer (ft.doStop (cfg.clock k))
              (fun g => { g with search := s, num := g.num + 1, phase := .suspended σ })) ∨
          (FSame i
          (match fStep info h fs ff with
            | .done => (⟨fs, ff, ft, k, fi, .finished⟩ : FGen)
            | .raised e => ⟨fs, ff, ft, k, fi, .raised e⟩
            | .silent s f => ⟨s, f, ft, k, fi, .running⟩
            | .yield σ s f => match ft.doStop (cfg.clock k) with
              | .ok t => ⟨s, f, t, k + 1, fi, .suspended σ⟩
              | .error e => ⟨fs, ff, ft, k, fi, .raised e⟩)
          (match fs.step (candidates info h) with
            | .done => (⟨fs, ft, k, gn, none, .finished⟩ : Gen)
            | .raised e => ⟨fs, ft, k, gn, none, .raised e⟩
            | .silent s => ⟨s, ft, k, gn, none, .running⟩
            | .yield σ s => (⟨fs, ft, k, gn, none, .running⟩ : Gen).withTimer (ft.doStop (cfg.clock k))
              (fun g => { g with search := s, num := g.num + 1, phase := .suspended σ })) ∧
          (match fs.step (candidates info h) with
            | .done => (⟨fs, ft, k, gn, none, .finished⟩ : Gen)
            | .raised e => ⟨fs, ft, k, gn, none, .raised e⟩
            | .silent s => ⟨s, ft, k, gn, none, .running⟩
            | .yield σ s => (⟨fs, ft, k, gn, none, .running⟩ : Gen).withTimer (ft.doStop (cfg.clock k))
              (fun g => { g with search := s, num := g.num + 1, phase := .suspended σ })).phase ≠ .running) := by
        intro k
        cases hstep : fs.step (candidates info h) with
        | silent s =>
          rw [hstep] at hst
          obtain ⟨f', e, hf'⟩ := hst
          rw [e]
          exact .inl ⟨⟨rfl, h2⟩, rfl, rfl, rfl, rfl, hf', rfl⟩
        | yield σ s =>
          rw [hstep] at hst
          obtain ⟨f', e⟩ := hst
          rw [e]
          simp only [Gen.withTimer]
          cases ft.doStop (cfg.clock k) with
          | ok t => exact .inr ⟨⟨rfl, h2⟩, by simp⟩
          | error e => exact .inr ⟨⟨rfl, h2⟩, by simp⟩
        | done =>
          rw [hstep] at hst
          rw [hst]
          exact .inr ⟨⟨rfl, h2⟩, by simp⟩
        | raised e =>
          rw [hstep] at hst
          rw [hst]
          exact .inr ⟨⟨rfl, h2⟩, by simp⟩
      cases hti : cfg.timeout.isSome with
      | true => simp only [if_true]; exact main (fk + 1)
      | false => simp only [Bool.false_eq_true, if_false]; exact main fk

theorem fRun_stopped {cfg : RunCfg} {info : Info} {h : Heap} (n : Nat) {f : FGen} (hf : f.phase.terminal) : fRun cfg info h n f = ([], f) := by
  induction n with
  | zero => rfl
  | succ n ih =>
    have : f.step cfg info h = f := by
      unfold FGen.step
      cases hp : f.phase with
      | running => rw [hp] at hf; exact hf.elim
      | suspended σ => rw [hp] at hf; exact hf.elim
      | finished => rfl
      | raised e => rfl
    simp only [fRun, this, ih]
    cases hp : f.phase with
    | running => rw [hp] at hf; exact hf.elim
    | suspended σ => rfl
    | finished => rfl
    | raised e => rfl

/-- After the first solution. -/
theorem fRun_suspended {cfg : RunCfg} {info : Info} {h : Heap} (n : Nat) {f : FGen} {σ : Subst} (hf : f.phase = .suspended σ) :
    fRun cfg info h (n + 1) f = ([], { f with phase := .raised (.nameError "limit") }) := by
  have h1 : f.step cfg info h = { f with phase := .raised (.nameError "limit") } := by
    unfold FGen.step; rw [hf]; rfl
  have h2 : fRun cfg info h n { f with phase := .raised (.nameError "limit") } = ([], { f with phase := .raised (.nameError "limit") }) :=
    fRun_stopped n trivial
  simp only [fRun, h1, h2, hf]
  rfl

/-- The whole run: the first solution of `solve`, then `NameError`. -/
theorem fRun_same {info : Info} (hN : Nbr info) {i : Option Interrupt} (cfg : RunCfg) (h : Heap) (n : Nat) : ∀ {f : FGen} {g : Gen},
    FRunning info i f g →
    (fRun cfg info h n f).1 = (sysRun cfg (candidates info) passive n g h).1.take 1 ∧
    ((sysRun cfg (candidates info) passive n g h).1 = [] → FSame i (fRun cfg info h n f).2 (sysRun cfg (candidates info) passive n g h).2.1) ∧
    (∀ k, (fRun cfg info h n f).1 ≠ [] → n < k → (fRun cfg info h k f).2.phase = .raised (.nameError "limit")) := by
  induction n with
  | zero => intro f g hs; exact ⟨rfl, fun _ => hs.toFSame, fun k hk => absurd rfl hk⟩
  | succ n ih =>
    intro f g hs
    have hf : f.phase = .running := hs.phase.trans hs.run
    have hsys : sysStep cfg (candidates info) passive g h = (g.loop cfg (candidates info h), h) := by
      unfold sysStep; rw [hs.run]
    have hfst : f.step cfg info h = f.loop cfg info h := by unfold FGen.step; rw [hf]
    simp only [fRun, sysRun, hsys, hfst, hf, hs.run]
    rcases loop_same hN hs cfg h with hr | ⟨hr, hstop⟩
    · obtain ⟨h1, h2, h3⟩ := ih hr
      have o1 : (f.loop cfg info h).phase.output = [] := by rw [hr.phase, hr.run]; rfl
      have o2 : (g.loop cfg (candidates info h)).phase.output = [] := by rw [hr.run]; rfl
      simp only [o1, o2, List.nil_append]
      refine ⟨h1, h2, fun k hne hk => ?_⟩
      obtain ⟨k, rfl⟩ : ∃ k', k = k' + 1 := ⟨k - 1, by omega⟩
      simp only [fRun, hfst]
      exact h3 k hne (by omega)
    · cases hp : (g.loop cfg (candidates info h)).phase with
      | running => exact absurd hp hstop
      | suspended σ =>
        have hfp : (f.loop cfg info h).phase = .suspended σ := hr.phase.trans hp
        simp only [hfp, Phase.output]
        refine ⟨?_, fun he => by simp at he, fun k _ hk => ?_⟩
        · cases n with
          | zero => rfl
          | succ n => rw [fRun_suspended n hfp]; rfl
        · obtain ⟨k, rfl⟩ : ∃ k', k = k' + 1 + 1 := ⟨k - 2, by omega⟩
          rw [fRun]
          simp only [hfst, fRun_suspended k hfp]
      | finished =>
        have hfp : (f.loop cfg info h).phase = .finished := hr.phase.trans hp
        have ht : (g.loop cfg (candidates info h)).phase.terminal := by rw [hp]; trivial
        rw [fRun_stopped n (by rw [hfp]; trivial), sysRun_terminal _ _ _ ht n]
        simp only [hfp, Phase.output]
        exact ⟨rfl, fun _ => hr, fun k hne => absurd rfl hne⟩
      | raised e =>
        have hfp : (f.loop cfg info h).phase = .raised e := hr.phase.trans hp
        have ht : (g.loop cfg (candidates info h)).phase.terminal := by rw [hp]; trivial
        rw [fRun_stopped n (by rw [hfp]; trivial), sysRun_terminal _ _ _ ht n]
        simp only [hfp, Phase.output]
        exact ⟨rfl, fun _ => hr, fun k hne => absurd rfl hne⟩

end Satisfy
