import Verif.Lemmas.Domains
import Verif.SpecPuzzle
/-!
# The domain of a variable is an object of the caller: C64
-/

namespace Satisfy.Props
open Satisfy

/-- A tuple or a range. -/
def DomObj.Immutable : DomObj → Prop
  | .seq (.list _) => False
  | .seq (.set _) => False
  | .seq _ => True
  | .iter _ => False

theorem canBecome_immutable {a b : DomObj} (h : a.canBecome b = true) (hi : DomObj.Immutable a) : b = a := by
  cases a with
  | iter vs => exact absurd hi id
  | seq d =>
    cases d with
    | list vs => exact absurd hi id
    | set vs => exact absurd hi id
    | tuple vs => simp only [DomObj.canBecome, decide_eq_true_eq] at h; exact h.symm
    | range a b s => simp only [DomObj.canBecome, decide_eq_true_eq] at h; exact h.symm

theorem scanned_immutable {a : DomObj} (hi : DomObj.Immutable a) : a.scanned = a := by
  cases a with
  | iter vs => exact absurd hi id
  | seq d => rfl

/-! ## While the model is built -/

/-- The call by value that does to the model what this one does. -/
def byValue (o : Objs) : RCall → List Call
  | .call c => [c]
  | .addInt r n => [.addInt (o r).values n]
  | .change _ _ => []

theorem declare_world (w : RWorld) (v : DomVal) (d : List Int) (n : Option Name) : (w.declare v d n).1.world = ((Call.addInt d n).run w.world).1 := by
  have h : ((Call.addInt d n).run w.world).1 = (addIntVariable d n w.world).1 := by
    simp only [Call.run]
    show (Api.bind (addIntVariable d n) _ w.world).1 = _
    unfold Api.bind
    cases hr : addIntVariable d n w.world with
    | mk w' r => cases r <;> rfl
  rw [h]
  unfold RWorld.declare
  split
  · next h => rw [h]
  · next h => rw [h]

theorem run_change (r : Nat) (o : DomObj) (w : RWorld) : (RCall.change r o).run w =
    if (w.objs r).canBecome o then { w with objs := fun i => if i = r then o else w.objs i } else w := rfl

theorem run_world (c : RCall) (w : RWorld) : (c.run w).world = runCalls (byValue w.objs c) w.world := by
  cases c with
  | addInt r n => exact declare_world _ _ _ _
  | change r o =>
    rw [run_change]
    split <;> rfl
  | call c =>
    cases c with
    | addInt d n => exact declare_world _ _ _ _
    | addBool n => exact declare_world _ _ _ _
    | _ => rfl

theorem declare_dom (w : RWorld) (hi : NameInv w.world.model.vars) (v : DomVal) (d : List Int) (n : Option Name) (x : Name) :
    (w.declare v d n).1.objs = w.objs ∧
    (x ∈ w.world.model.vars.keys → (w.declare v d n).1.dom x = w.dom x) ∧
    (x ∉ w.world.model.vars.keys → x ∈ (w.declare v d n).1.world.model.vars.keys →
      (w.declare v d n).1.dom x = v ∧ (w.declare v d n).1.world.model.domain? x = some d) := by
  unfold RWorld.declare
  rcases addInt_effect d n w.world hi with ⟨e, he⟩ | ⟨nm, he, _, hi', _⟩
  · rw [he]
    exact ⟨rfl, fun _ => rfl, fun h1 h2 => absurd h2 h1⟩
  · rw [he]
    have hn : nm ∉ w.world.model.vars.keys := by
      have := hi'.1
      rw [Dict.keys_append] at this
      exact fun hm => (List.nodup_append.1 this).2.2 nm hm nm (by simp [Dict.keys]) rfl
    refine ⟨rfl, fun hx => ?_, fun hx hx' => ?_⟩
    · simp only
      rw [if_neg (by rintro rfl; exact hn hx)]
    · simp only at hx' ⊢
      rw [Dict.keys_append] at hx'
      rcases List.mem_append.1 hx' with hx' | hx'
      · exact absurd hx' hx
      · simp only [Dict.keys, List.map_cons, List.map_nil, List.mem_singleton] at hx'
        subst hx'
        refine ⟨by simp, ?_⟩
        unfold Model.domain?
        simp only [Dict.get?_append]
        rw [(Dict.get?_eq_none_iff _ _).2 hx]
        simp [Dict.get?]

/-- What one step of the program keeps. -/
theorem run_keep (c : RCall) (w : RWorld) (hi : NameInv w.world.model.vars) :
    NameInv (c.run w).world.model.vars ∧
    (∀ x i, w.world.model.vars.get? x = some i → (c.run w).world.model.vars.get? x = some i ∧ (c.run w).dom x = w.dom x) ∧
    (∀ r, DomObj.Immutable (w.objs r) ∨ ((∃ d, w.objs r = .seq d) ∧ ∀ o, c ≠ .change r o) → (c.run w).objs r = w.objs r) := by
  have hw := run_world c w
  have hvars : NameInv (c.run w).world.model.vars ∧ ∀ x i, w.world.model.vars.get? x = some i → (c.run w).world.model.vars.get? x = some i := by
    rw [hw]
    have one : ∀ c : Call, NameInv (runCalls [c] w.world).model.vars ∧
        ∀ x i, w.world.model.vars.get? x = some i → (runCalls [c] w.world).model.vars.get? x = some i := by
      intro c
      obtain ⟨h1, h2⟩ := C11_call c w.world hi
      refine ⟨h1, fun x i hx => ?_⟩
      rcases h2 with h2 | ⟨nm, info, _, _, h2⟩
      · show ((c.run w.world).1.model.vars.get? x) = _
        rw [h2, hx]
      · show ((c.run w.world).1.model.vars.get? x) = _
        rw [h2, Dict.get?_append, hx]
        rfl
    cases c with
    | call c => exact one c
    | addInt r n => exact one _
    | change r o => exact ⟨hi, fun x i hx => hx⟩
  refine ⟨hvars.1, fun x i hx => ⟨hvars.2 x i hx, ?_⟩, fun r hr => ?_⟩
  · have hx' : x ∈ w.world.model.vars.keys := Dict.mem_keys_of_get? hx
    cases c with
    | addInt r n => exact (declare_dom { w with objs := fun i => if i = r then (w.objs r).scanned else w.objs i } hi _ _ _ x).2.1 hx'
    | change r o =>
      rw [run_change]
      split <;> rfl
    | call c =>
      cases c with
      | addInt d n => exact (declare_dom w hi _ _ _ x).2.1 hx'
      | addBool n => exact (declare_dom w hi _ _ _ x).2.1 hx'
      | _ => rfl
  · cases c with
    | addInt q n =>
      have : ((RCall.addInt q n).run w).objs = fun i => if i = q then (w.objs q).scanned else w.objs i :=
        (declare_dom { w with objs := fun i => if i = q then (w.objs q).scanned else w.objs i } hi _ _ _ "").1
      rw [this]
      simp only
      split
      · next h =>
        subst h
        rcases hr with hr | ⟨⟨d, hr⟩, _⟩
        · exact scanned_immutable hr
        · rw [hr]; rfl
      · rfl
    | change q o =>
      rw [run_change]
      split
      · next h =>
        simp only
        split
        · next he =>
          subst he
          rcases hr with hr | ⟨_, hr⟩
          · exact canBecome_immutable h hr
          · exact absurd rfl (hr o)
        · rfl
      · rfl
    | call c =>
      cases c with
      | addInt d n => rw [RCall.run, (declare_dom w hi _ _ _ "").1]
      | addBool n => rw [RCall.run, (declare_dom w hi _ _ _ "").1]
      | _ => rfl

theorem runR_keep (p : List RCall) (w : RWorld) (hi : NameInv w.world.model.vars) {x : Name} {i : VarInfo} {r : Nat}
    (hx : w.world.model.vars.get? x = some i) (hr : DomObj.Immutable (w.objs r) ∨ ((∃ d, w.objs r = .seq d) ∧ ∀ o, .change r o ∉ p)) :
    (runR p w).world.model.vars.get? x = some i ∧ (runR p w).dom x = w.dom x ∧ (runR p w).objs r = w.objs r := by
  induction p generalizing w with
  | nil => exact ⟨hx, rfl, rfl⟩
  | cons c p ih =>
    obtain ⟨h1, h2, h3⟩ := run_keep c w hi
    have ho : (c.run w).objs r = w.objs r := h3 r (by
      rcases hr with hr | ⟨hr, hn⟩
      · exact .inl hr
      · exact .inr ⟨hr, fun o he => hn o (by simp [he])⟩)
    have := ih (c.run w) h1 (h2 x i hx).1 (by
      rw [ho]
      rcases hr with hr | ⟨hr, hn⟩
      · exact .inl hr
      · exact .inr ⟨hr, fun o he => hn o (by simp [he])⟩)
    rw [runR]
    exact ⟨this.1, this.2.1.trans (h2 x i hx).2, this.2.2.trans ho⟩

/-- The call added this variable to the model. -/
def Declares (w : RWorld) (r : Nat) (name : Option Name) (x : Name) : Prop :=
  x ∉ w.world.model.vars.keys ∧ x ∈ ((RCall.addInt r name).run w).world.model.vars.keys

/-- The full claim: whatever the program does after it has declared a variable, the solver finds the values the domain had at the declaration. -/
def C64 : Prop := ∀ (w : RWorld) (r : Nat) (name : Option Name) (x : Name) (p : List RCall), NameInv w.world.model.vars → Declares w r name x →
  (runR p ((RCall.addInt r name).run w)).live.domain? x = some (w.objs r).values

/-- C64 (missing: lists that are changed later, iterators): a tuple or a range given as domain is the domain for ever, a list as long as the program does not change it. -/
theorem C64_partial (w : RWorld) (r : Nat) (name : Option Name) (x : Name) (p : List RCall) (hi : NameInv w.world.model.vars) (hd : Declares w r name x)
    (hr : DomObj.Immutable (w.objs r) ∨ ((∃ d, w.objs r = .seq d) ∧ ∀ o, .change r o ∉ p)) :
    (runR p ((RCall.addInt r name).run w)).live.domain? x = some (w.objs r).values := by
  obtain ⟨h1, _, h3⟩ := run_keep (.addInt r name) w hi
  have ho := h3 r (by
    rcases hr with hr | ⟨hr, _⟩
    · exact .inl hr
    · exact .inr ⟨hr, nofun⟩)
  have hdd := (declare_dom { w with objs := fun i => if i = r then (w.objs r).scanned else w.objs i } hi (.ref r) (w.objs r).values name x).2.2 hd.1 hd.2
  have hdom : ((RCall.addInt r name).run w).dom x = .ref r := hdd.1
  have hval : ((RCall.addInt r name).run w).world.model.domain? x = some (w.objs r).values := hdd.2
  obtain ⟨i, hx⟩ := Dict.get?_isSome_of_mem_keys hd.2
  obtain ⟨k1, k2, k3⟩ := runR_keep p _ h1 hx (r := r) (by rw [ho]; exact hr)
  rw [live_domain, k2, hdom]
  have : (runR p ((RCall.addInt r name).run w)).world.model.domain? x = some (w.objs r).values := by
    rw [← hval]
    unfold Model.domain?
    rw [k1, hx]
  rw [this]
  simp only [Option.map_some, DomVal.obj, k3, ho]

/-- An iterator is used up by the declaration. -/
theorem C64_iterator (w : RWorld) (r : Nat) (name : Option Name) (x : Name) (hi : NameInv w.world.model.vars) (hd : Declares w r name x) {vs : List Int}
    (hr : w.objs r = .iter vs) : ((RCall.addInt r name).run w).live.domain? x = some [] := by
  have hdd := declare_dom { w with objs := fun i => if i = r then (w.objs r).scanned else w.objs i } hi (.ref r) (w.objs r).values name x
  have hdom : ((RCall.addInt r name).run w).dom x = .ref r := (hdd.2.2 hd.1 hd.2).1
  have hval : ((RCall.addInt r name).run w).world.model.domain? x = some (w.objs r).values := (hdd.2.2 hd.1 hd.2).2
  have hobj : ((RCall.addInt r name).run w).objs r = .iter (leftOver [] vs) := by
    rw [show ((RCall.addInt r name).run w).objs = _ from hdd.1]
    simp [hr, DomObj.scanned]
  have hnd : vs.Nodup := by
    have : ((Call.addInt vs name).run w.world).1 = ((RCall.addInt r name).run w).world := by
      rw [run_world]; simp only [byValue, hr]; rfl
    rcases addInt_effect vs name w.world hi with ⟨e, he⟩ | ⟨nm, _, hnd, _⟩
    · have h1 := declare_world w (.ref r) vs name
      rw [this] at h1
      unfold RWorld.declare at h1
      rw [he] at h1
      have := hd.2
      rw [← h1] at this
      exact absurd this hd.1
    · exact hnd
  have hleft : ∀ (vs seen : List Int), vs.Nodup → (∀ v ∈ vs, v ∉ seen) → leftOver seen vs = [] := by
    intro vs
    induction vs with
    | nil => intro _ _ _; rfl
    | cons v vs ih =>
      intro seen hn hs
      rw [leftOver, if_neg (by simpa using hs v (by simp))]
      refine ih _ (List.nodup_cons.1 hn).2 (fun u hu hm => ?_)
      rcases List.mem_cons.1 hm with rfl | hm
      · exact (List.nodup_cons.1 hn).1 hu
      · exact hs u (by simp [hu]) hm
  rw [live_domain, hval, hdom]
  simp only [Option.map_some, DomVal.obj, hobj, DomObj.values, hleft vs [] hnd (by simp)]

/-! ## While the solver runs -/

/-- The consumer works with the parameters as `act` says and besides changes domain objects. -/
def withChanges (act : Heap → Subst → Res Heap) (chg : Heap → Objs → Subst → Objs) (s : Heap × Objs) (σ : Subst) : Res (Heap × Objs) :=
  (act s.1 σ).map (fun h => (h, chg s.1 s.2 σ))

/-- Nothing the consumer does to its objects reaches this variable during the iteration: its domain is a tuple or a range, or an object it leaves alone, or there is a constraint on this
variable alone (the solver then has a tuple of its own). -/
def Sheltered (w : RWorld) (cs : List Constraint) (chg : Heap → Objs → Subst → Objs) (x : Name) : Prop :=
  DomObj.Immutable ((w.dom x).obj w.objs) ∨ Filtered cs x ∨ ∀ r, w.dom x = .ref r → ∀ h o σ, chg h o σ r = o r

/-- Every domain has a length. -/
def Sized (w : RWorld) : Prop := ∀ x d, w.world.model.domain? x = some d → ∃ s, (w.dom x).obj w.objs = .seq s

theorem init_get (w : RWorld) (hn : w.world.model.vars.keys.Nodup) (x : Name) : (RInfo.init w).vars.get? x = (w.world.model.domain? x).map (fun _ => w.dom x) := by
  unfold RInfo.init Model.domain?
  simp only
  revert hn
  induction w.world.model.vars with
  | nil => intro _; rfl
  | cons p d ih =>
    intro hn
    obtain ⟨k, i⟩ := p
    simp only [Dict.keys, List.map_cons, List.nodup_cons] at hn
    simp only [List.filterMap_cons, Dict.get?]
    by_cases hk : k = x
    · subst hk
      cases hi : i.domain with
      | none =>
        have hnone : Dict.get? d k = none := (Dict.get?_eq_none_iff d k).2 hn.1
        simp only [Option.map_none, ih hn.2, hnone, if_true, Option.bind_some, hi]
        rfl
      | some v => simp [Dict.get?, hi]
    · cases hi : i.domain with
      | none => simp only [Option.map_none, ih hn.2, if_neg hk]
      | some v => simp only [Option.map_some, Dict.get?, if_neg hk, ih hn.2]

theorem mem_init {w : RWorld} {p : Name × DomVal} (h : p ∈ (RInfo.init w).vars) : p.2 = w.dom p.1 ∧ ∃ i d, (p.1, i) ∈ w.world.model.vars ∧ i.domain = some d := by
  unfold RInfo.init at h
  simp only [List.mem_filterMap] at h
  obtain ⟨q, hq, he⟩ := h
  cases hd : q.2.domain with
  | none => rw [hd] at he; cases he
  | some d =>
    rw [hd] at he
    simp only [Option.map_some, Option.some.injEq] at he
    subst he
    exact ⟨rfl, q.2, d, hq, hd⟩

theorem sized_iff (w : RWorld) (hn : w.world.model.vars.keys.Nodup) : (RInfo.init w).sized w.objs = true ↔ Sized w := by
  unfold RInfo.sized Sized
  rw [List.all_eq_true]
  constructor
  · intro h x d hx
    unfold Model.domain? at hx
    cases hg : w.world.model.vars.get? x with
    | none => rw [hg] at hx; cases hx
    | some i =>
      rw [hg] at hx
      have hm : (x, w.dom x) ∈ (RInfo.init w).vars := by
        unfold RInfo.init
        simp only [List.mem_filterMap]
        exact ⟨(x, i), Dict.mem_of_get? hg, by simp only [Option.bind_some] at hx; rw [hx]; rfl⟩
      have := h _ hm
      simp only at this
      cases ho : (w.dom x).obj w.objs with
      | seq s => exact ⟨s, rfl⟩
      | iter vs => rw [ho] at this; cases this
  · intro h p hp
    obtain ⟨h1, i, d, h2, h3⟩ := mem_init hp
    obtain ⟨s, hs⟩ := h p.1 d (by unfold Model.domain?; rw [Dict.get?_of_mem hn h2]; exact h3)
    rw [h1, hs]

theorem candidates_view (ri : RInfo) (o o' : Objs) (h : Heap) (hv : ∀ x, (ri.vars.get? x).map (fun v => (v.obj o).values) = (ri.vars.get? x).map (fun v => (v.obj o').values)) :
    candidates (ri.view o) h = candidates (ri.view o') h := by
  funext x σ
  have hg : ∀ o : Objs, (ri.view o).vars.get? x = (ri.vars.get? x).map (fun v => (v.obj o).values) :=
    fun o => Dict.get?_map ri.vars (fun _ v => (v.obj o).values) x
  have hl : ∀ d, candLoop h (ri.view o) x σ d = candLoop h (ri.view o') x σ d := by
    intro d
    induction d with
    | nil => rfl
    | cons v vs ih =>
      rw [candLoop, candLoop, ih]
      rfl
  unfold candidates
  rw [hg, hg, hv x]
  cases (ri.vars.get? x).map (fun v => (v.obj o').values) with
  | none => rfl
  | some d => exact hl d

/-- C64: a consumer that changes domain objects while it iterates does not disturb the iteration, if all variables are sheltered: the iteration runs on the values the domains had when it
was started. In particular, without any changes, `solve` works on the present values of the domain objects. -/
theorem C64_iteration (a : SolveArgs) (w : RWorld) (hn : w.world.model.vars.keys.Nodup) (hs : Sized w) (act : Heap → Subst → Res Heap)
    (chg : Heap → Objs → Subst → Objs) (hchg : ∀ (h : Heap) (o : Objs) (σ : Subst) (r : Nat), (o r).canBecome (chg h o σ r) = true)
    (hsh : ∀ x d, w.world.model.domain? x = some d → Sheltered w (w.world.model.constraints ++ a.adds) chg x) (n : Nat) :
    let run := rRun a w (withChanges act chg) n
    let plain := solveRun a w.live act n w.world.heap
    run.1 = plain.1 ∧ run.2.1 = plain.2.1 ∧ run.2.2.1 = plain.2.2 := by
  have hv := rstart_view a w ((sized_iff w hn).2 hs)
  unfold rRun solveRun
  rw [← hv]
  simp only
  by_cases hrun : (rstart a w).2.2.phase = .running
  · have hset : ∃ h', rsetup a.solver.compile w a.adds = (h', .ok (rstart a w).2.1) := by
      unfold rstart at hrun ⊢
      split at hrun
      · cases hrun
      · next hsol =>
        rw [if_neg hsol]
        cases hr : rsetup a.solver.compile w a.adds with
        | mk h' r =>
          rw [hr] at hrun
          cases r with
          | error e => cases hrun
          | ok ri' =>
            simp only
            refine ⟨h', ?_⟩
            split <;> rfl
    obtain ⟨h', hset⟩ := hset
    have := sysRun_sim (fun (s : Heap × Objs) (t : Heap) => s.1 = t ∧ (∀ r, DomObj.Immutable (w.objs r) → s.2 r = w.objs r) ∧
        ∀ r, (∀ h o σ, chg h o σ r = o r) → s.2 r = w.objs r) a.cfg
      (cand := fun (s : Heap × Objs) => candidates ((rstart a w).2.1.view s.2) s.1) (cand' := candidates ((rstart a w).2.1.view w.objs))
      (act := withChanges act chg) (act' := act) ?_ ?_ n (rstart a w).2.2 ((rstart a w).1, w.objs) (rstart a w).1 ⟨rfl, fun _ _ => rfl, fun _ _ => rfl⟩
    · exact ⟨this.1, this.2.1, this.2.2.1⟩
    · rintro ⟨h, o⟩ t ⟨rfl, ho1, ho2⟩
      refine candidates_view _ _ _ h (fun x => ?_)
      cases hx : (rstart a w).2.1.vars.get? x with
      | none => rfl
      | some v =>
        simp only [Option.map_some]
        congr 2
        obtain ⟨k1, k2⟩ := rsetup_vars hset x
        cases v with
        | tuple d => rfl
        | ref r =>
          have hg : (RInfo.init w).vars.get? x = some (.ref r) := by
            rcases k1 with k1 | ⟨d, k1⟩
            · rw [← k1, hx]
            · rw [hx] at k1; cases k1
          have hdom := init_get w hn x
          rw [hg] at hdom
          cases hd : w.world.model.domain? x with
          | none => rw [hd] at hdom; cases hdom
          | some d =>
            rw [hd] at hdom
            simp only [Option.map_some, Option.some.injEq] at hdom
            simp only [DomVal.obj]
            rcases hsh x d hd with h1 | h1 | h1
            · rw [← hdom] at h1
              exact ho1 r h1
            · obtain ⟨d', hd'⟩ := k2 h1 (by rw [hg]; rfl)
              rw [hx] at hd'; cases hd'
            · exact ho2 r (h1 r hdom.symm)
    · rintro ⟨h, o⟩ t σ ⟨rfl, ho1, ho2⟩
      unfold withChanges
      simp only at ho1 ho2 ⊢
      cases ha : act h σ with
      | error e => exact .inl ⟨e, rfl, rfl⟩
      | ok h2 =>
        refine .inr ⟨(h2, chg h o σ), h2, rfl, rfl, rfl, fun r hr => ?_, fun r hr => ?_⟩
        · have := canBecome_immutable (hchg h o σ r) (by rw [ho1 r hr]; exact hr)
          simp only
          rw [this, ho1 r hr]
        · simp only
          rw [hr, ho2 r hr]
  · have hterm : (rstart a w).2.2.phase.terminal := by
      have hst : (rstart a w).2.2 = (startSolve a w.live w.world.heap).2.2 := by rw [← hv]
      rw [hst] at hrun ⊢
      unfold startSolve at hrun ⊢
      split
      · trivial
      · next hsol =>
        rw [if_neg hsol] at hrun
        cases hr : setup a.solver.compile w.live a.adds w.world.heap with
        | mk h' r =>
          rw [hr] at hrun
          cases r with
          | error e => trivial
          | ok info =>
            simp only at hrun ⊢
            cases ho : orderVars a.solver.policy a.shuffle w.live info with
            | nil => trivial
            | cons x xs => rw [ho] at hrun; exact absurd rfl hrun
    rw [sysRun_terminal _ _ _ hterm, sysRun_terminal _ _ _ hterm]
    exact ⟨rfl, rfl, rfl⟩

/-- C64: a variable declared with an iterator makes every `solve` raise `TypeError` at its start. -/
theorem C64_iterator_solve (a : SolveArgs) (w : RWorld) (hn : w.world.model.vars.keys.Nodup) (hs : ¬ Sized w) (hsol : w.world.model.solvable = true)
    (act : Heap × Objs → Subst → Res (Heap × Objs)) (n : Nat) : (rRun a w act n).1 = [] ∧ (rRun a w act n).2.1.phase = .raised .typeError := by
  have h1 : (RInfo.init w).sized w.objs = false := by
    cases h : (RInfo.init w).sized w.objs with
    | false => rfl
    | true => exact absurd ((sized_iff w hn).1 h) hs
  have h2 : rstart a w = (w.world.heap, .init w, .idle (.raised .typeError)) := by
    unfold rstart rsetup
    simp [h1, hsol]
  unfold rRun
  rw [h2]
  simp only
  rw [sysRun_terminal _ _ _ (by trivial)]
  exact ⟨rfl, rfl⟩

/-! ## Programs that leave their domain objects alone -/

/-- The domain objects of the program are tuples, ranges, and lists that it does not change. -/
def HandsOff (o : Objs) (p : List RCall) : Prop :=
  ∀ r n, .addInt r n ∈ p → DomObj.Immutable (o r) ∨ (∃ d, o r = .seq d) ∧ ∀ o', .change r o' ∉ p

/-- The invariant: the values noted are the values the domain objects have. -/
structure Faithful (used : Nat → Prop) (w : RWorld) : Prop where
  names : NameInv w.world.model.vars
  same : ∀ x d, w.world.model.domain? x = some d → ((w.dom x).obj w.objs).values = d
  refs : ∀ x d r, w.world.model.domain? x = some d → w.dom x = .ref r → used r

theorem faithful_live {used : Nat → Prop} {w : RWorld} (h : Faithful used w) : w.live = w.world.model := by
  unfold RWorld.live
  have : ∀ p ∈ w.world.model.vars, ((p.1, { p.2 with domain := p.2.domain.map (fun _ => ((w.dom p.1).obj w.objs).values) }) : Name × VarInfo) = p := by
    rintro ⟨x, i⟩ hp
    cases hd : i.domain with
    | none =>
      simp only [hd, Option.map_none]
      rw [← hd]
    | some d =>
      have hx : w.world.model.domain? x = some d := by
        unfold Model.domain?
        rw [Dict.get?_of_mem h.names.1 hp]
        exact hd
      simp only [hd, Option.map_some, h.same x d hx]
      rw [← hd]
  rw [List.map_congr_left this, List.map_id']

theorem domain_other {v v' : Dict VarInfo} {cs cs' : List Constraint} {b b' : Bool} {x : Name} (h : v.get? x = v'.get? x) :
    (Model.mk v cs b).domain? x = (Model.mk v' cs' b').domain? x := by
  unfold Model.domain?
  rw [h]

theorem addCon_vars (c : Call) (w : World) (_hi : NameInv w.model.vars) (hc : (∃ a, c = .addCon a) ∨ ∃ ns, c = .addAllDiff ns) :
    (c.run w).1.model.vars = w.model.vars := by
  have hcon : ∀ (k : Constraint) (w' : World), w'.model = w.model → (addConstraint (.constraint k) w').1.model.vars = w.model.vars := by
    intro k w' hw'
    rw [addCon_effect]
    split
    · split
      · rw [hw']
      · split
        · simp [hw']
        · rw [hw']
    · split
      · rw [hw']
      · simp [hw']
  rcases hc with ⟨a, rfl⟩ | ⟨ns, rfl⟩
  · simp only [Call.run]
    cases a with
    | bool b => rw [addCon_bool]; exact hcon _ { w with heap := _ } rfl
    | expr b => rw [addCon_expr]; exact hcon _ { w with heap := _ } rfl
    | constraint k => exact hcon k w rfl
    | other => rfl
  · simp only [Call.run]
    rw [addAllDiff_eq]
    exact hcon _ { w with heap := _ } rfl

/-- A variable of the model after a step was there before, with the same domain, or has been declared by this step. -/
theorem run_domain (c : RCall) (w : RWorld) (hi : NameInv w.world.model.vars) (x : Name) (d : List Int) (hx : (c.run w).world.model.domain? x = some d) :
    (w.world.model.domain? x = some d ∧ (c.run w).dom x = w.dom x) ∨
    (((c.run w).dom x = .tuple d) ∨ ∃ r n, c = .addInt r n ∧ (c.run w).dom x = .ref r ∧ d = (w.objs r).values) := by
  obtain ⟨_, hkeep, _⟩ := run_keep c w hi
  by_cases hk : x ∈ w.world.model.vars.keys
  · obtain ⟨i, hi'⟩ := Dict.get?_isSome_of_mem_keys hk
    obtain ⟨h1, h2⟩ := hkeep x i hi'
    refine .inl ⟨?_, h2⟩
    unfold Model.domain? at hx ⊢
    rw [h1] at hx
    rw [hi', hx]
  · have hk' : x ∈ (c.run w).world.model.vars.keys := by
      unfold Model.domain? at hx
      cases hg : (c.run w).world.model.vars.get? x with
      | none => rw [hg] at hx; cases hx
      | some i => exact Dict.mem_keys_of_get? hg
    refine .inr ?_
    cases c with
    | addInt r n =>
      obtain ⟨h1, h2⟩ := (declare_dom { w with objs := fun i => if i = r then (w.objs r).scanned else w.objs i } hi (.ref r) (w.objs r).values n x).2.2 hk hk'
      refine .inr ⟨r, n, rfl, h1, ?_⟩
      have h3 : ((RCall.addInt r n).run w).world.model.domain? x = some (w.objs r).values := h2
      rw [hx] at h3
      exact Option.some.inj h3
    | change r o =>
      rw [run_change] at hk'
      split at hk' <;> exact absurd hk' hk
    | call c =>
      have tup : ∀ d' n, x ∈ (w.declare (.tuple d') d' n).1.world.model.vars.keys → (w.declare (.tuple d') d' n).1.world.model.domain? x = some d →
          (w.declare (.tuple d') d' n).1.dom x = .tuple d := by
        intro d' n h1 h2
        obtain ⟨h3, h4⟩ := (declare_dom w hi (.tuple d') d' n x).2.2 hk h1
        rw [h4] at h2
        rw [h3, Option.some.inj h2]
      have none : ∀ c' : Call, (∀ d n, c' ≠ .addInt d n) → (∀ n, c' ≠ .addBool n) → (c'.run w.world).1.model.domain? x ≠ some d := by
        intro c' hc1 hc2 hd
        have h0 : w.world.model.vars.get? x = none := (Dict.get?_eq_none_iff _ _).2 hk
        have same : (c'.run w.world).1.model.vars = w.world.model.vars → False := by
          intro h2
          unfold Model.domain? at hd
          rw [h2, h0] at hd
          cases hd
        cases c' with
        | addInt d n => exact hc1 d n rfl
        | addBool n => exact hc2 n rfl
        | addParam v n =>
          have hrun : ((Call.addParam v n).run w.world).1 = (addParameter v n w.world).1 := by
            simp only [Call.run, Api.bind_apply]
            cases hf : addParameter v n w.world with
            | mk w' r => cases r <;> rfl
          rcases addParam_effect v n w.world hi with ⟨e', he⟩ | ⟨nm, he, _, _⟩
          · exact same (by rw [hrun, he])
          · rw [hrun, he] at hd
            unfold Model.domain? at hd
            simp only [Dict.get?_append, h0, Option.none_or, Dict.get?] at hd
            split at hd <;> cases hd
        | addCon a =>
          refine same ?_
          have := addCon_vars (.addCon a) w.world hi (.inl ⟨a, rfl⟩)
          exact this
        | addAllDiff ns =>
          refine same ?_
          exact addCon_vars (.addAllDiff ns) w.world hi (.inr ⟨ns, rfl⟩)
        | setSolvable b => exact same rfl
        | setParam i v => exact same rfl
      cases c with
      | addInt d' n => exact .inl (tup d' n hk' hx)
      | addBool n => exact .inl (tup [0, 1] n hk' hx)
      | addParam v n => exact absurd hx (none _ nofun nofun)
      | addCon a => exact absurd hx (none _ nofun nofun)
      | addAllDiff ns => exact absurd hx (none _ nofun nofun)
      | setSolvable b => exact absurd hx (none _ nofun nofun)
      | setParam i v => exact absurd hx (none _ nofun nofun)

theorem runR_faithful {used : Nat → Prop} (p : List RCall) (w : RWorld) (h : Faithful used w)
    (hq : ∀ r, used r → DomObj.Immutable (w.objs r) ∨ (∃ d, w.objs r = .seq d) ∧ ∀ o', .change r o' ∉ p) (hu : ∀ r n, .addInt r n ∈ p → used r) :
    Faithful used (runR p w) ∧ (∀ r, used r → (runR p w).objs r = w.objs r) ∧ (runR p w).world = runCalls (p.flatMap (byValue w.objs)) w.world := by
  induction p generalizing w with
  | nil => exact ⟨h, fun _ _ => rfl, rfl⟩
  | cons c p ih =>
    obtain ⟨h1, h2, h3⟩ := run_keep c w h.names
    have hobj : ∀ r, used r → (c.run w).objs r = w.objs r := by
      intro r hr
      refine h3 r ?_
      rcases hq r hr with h4 | ⟨h4, h5⟩
      · exact .inl h4
      · exact .inr ⟨h4, fun o he => h5 o (by simp [he])⟩
    have hf : Faithful used (c.run w) := by
      refine ⟨h1, fun x d hx => ?_, fun x d r hx hr => ?_⟩
      · rcases run_domain c w h.names x d hx with ⟨k1, k2⟩ | k1 | ⟨r, n, k1, k2, k3⟩
        · rw [k2]
          cases hd : w.dom x with
          | tuple vs =>
            have := h.same x d k1
            rw [hd] at this
            exact this
          | ref r =>
            have := h.same x d k1
            rw [hd] at this
            simp only [DomVal.obj] at this ⊢
            rw [hobj r (h.refs x d r k1 hd), this]
        · rw [k1]; rfl
        · rw [k2, k3]
          simp only [DomVal.obj]
          rw [hobj r (hu r n (by simp [k1]))]
      · rcases run_domain c w h.names x d hx with ⟨k1, k2⟩ | k1 | ⟨r', n, k1, k2, k3⟩
        · rw [k2] at hr
          exact h.refs x d r k1 hr
        · rw [k1] at hr; cases hr
        · rw [k2] at hr
          cases hr
          exact hu r n (by simp [k1])
    obtain ⟨i1, i2, i3⟩ := ih (c.run w) hf (by
      intro r hr
      rw [hobj r hr]
      rcases hq r hr with h4 | ⟨h4, h5⟩
      · exact .inl h4
      · exact .inr ⟨h4, fun o he => h5 o (by simp [he])⟩) (fun r n hm => hu r n (by simp [hm]))
    rw [runR]
    refine ⟨i1, fun r hr => (i2 r hr).trans (hobj r hr), ?_⟩
    rw [i3, run_world, List.flatMap_cons]
    have hb : p.flatMap (byValue (c.run w).objs) = p.flatMap (byValue w.objs) := by
      refine List.flatMap_congr (fun c' hc' => ?_)
      cases c' with
      | call c' => rfl
      | change r o => rfl
      | addInt r n => simp only [byValue, hobj r (hu r n (by simp [hc']))]
    rw [hb]
    have happ : ∀ (l l' : List Call) (v : World), runCalls l' (runCalls l v) = runCalls (l ++ l') v := by
      intro l
      induction l with
      | nil => intro _ _; rfl
      | cons c l ih => intro l' v; exact ih l' _
    exact happ _ _ _

/-- C64, for whole programs: if the domain objects are tuples, ranges and lists that the program leaves alone, also while it iterates, then everything is as if the domains were values:
the model is the one the calls by value build, and an iteration runs as on that model. -/
theorem C64_program (h : Heap) (dom : Name → DomVal) (o : Objs) (p : List RCall) (hq : HandsOff o p) (a : SolveArgs) (act : Heap → Subst → Res Heap) (n : Nat) :
    let w := runR p ⟨⟨.empty, h⟩, dom, o⟩
    let v := runCalls (p.flatMap (byValue o)) ⟨.empty, h⟩
    let run := rRun a w (withChanges act (fun _ o _ => o)) n
    let plain := solveRun a v.model act n v.heap
    w.live = v.model ∧ w.world.heap = v.heap ∧ run.1 = plain.1 ∧ run.2.1 = plain.2.1 ∧ run.2.2.1 = plain.2.2 := by
  intro w v run plain
  obtain ⟨h1, h2, h3⟩ := runR_faithful (used := fun r => ∃ n, .addInt r n ∈ p) p ⟨⟨.empty, h⟩, dom, o⟩
    ⟨emptyInv, fun x d hx => by simp [Model.domain?, Model.empty] at hx, fun x d r hx => by simp [Model.domain?, Model.empty] at hx⟩
    (fun r ⟨n, hr⟩ => hq r n hr) (fun r n hr => ⟨n, hr⟩)
  have hlive : w.live = v.model := by rw [faithful_live h1, h3]
  have hheap : w.world.heap = v.heap := by rw [h3]
  have hsized : Sized w := by
    intro x d hx
    cases hd : w.dom x with
    | tuple vs => exact ⟨_, rfl⟩
    | ref r =>
      obtain ⟨n, hr⟩ := h1.refs x d r hx hd
      simp only [DomVal.obj]
      have : w.objs r = o r := h2 r ⟨n, hr⟩
      rw [this]
      rcases hq r n hr with hm | ⟨hm, _⟩
      · cases ho : o r with
        | seq s => exact ⟨s, rfl⟩
        | iter vs => rw [ho] at hm; exact absurd hm id
      · exact hm
  have hcb : ∀ a : DomObj, a.canBecome a = true := by
    intro a
    cases a with
    | iter vs => simp [DomObj.canBecome]
    | seq d => cases d <;> simp [DomObj.canBecome]
  have := C64_iteration a w h1.names.1 hsized act (fun _ o _ => o) (fun h o σ r => hcb (o r)) (fun x d _ => .inr (.inr (fun _ _ _ _ _ => rfl))) n
  rw [hlive, hheap] at this
  exact ⟨hlive, hheap, this⟩

/-! ## The claim is false -/

/-- Object 0 is the list `[1, 2]`, object 1 an iterator over 1, 2, object 3 an empty list, all others the tuple `(1, 2)`. -/
def objs64 : Objs
  | 0 => .seq (.list [1, 2])
  | 1 => .iter [1, 2]
  | 3 => .seq (.list [])
  | _ => .seq (.tuple [1, 2])

def world64 : RWorld := ⟨⟨.empty, heap0⟩, fun _ => .tuple [], objs64⟩

/-- `d = [1, 2]; x = model.add_int_variable(d, name="x"); d.append(2)`. -/
theorem C64_refuted : ¬ C64 := by
  intro h
  have := h world64 0 (some "x") "x" [.change 0 (.seq (.list [1, 2, 2]))] emptyInv (by unfold Declares; decide)
  revert this
  decide

/-- `model.add_int_variable(iter([1, 2]), name="x")`. -/
theorem C64_refuted_iterator : ¬ C64 := by
  intro h
  have := h world64 1 (some "x") "x" [] emptyInv (by unfold Declares; decide)
  revert this
  decide

/-- After the `append` the same solution is handed out twice, although `add_int_variable` refuses domains with duplicates. -/
theorem C64_twice : (rRun { solver := {} } (runR [.addInt 0 (some "x"), .change 0 (.seq (.list [1, 2, 2]))] world64) (withChanges passive (fun _ o _ => o)) 8).1 =
    [[("x", 1)], [("x", 2)], [("x", 2)]] := by decide

/-- The domain of the second variable is emptied while the first solution is looked at: the iteration reads it again and misses the others. -/
theorem C64_during : (rRun { solver := { policy := .ordered } } (runR [.addInt 2 (some "x"), .addInt 0 (some "y")] world64) (withChanges passive (fun _ o _ => o)) 20).1 =
      [[("x", 1), ("y", 1)], [("x", 1), ("y", 2)], [("x", 2), ("y", 1)], [("x", 2), ("y", 2)]] ∧
    (rRun { solver := { policy := .ordered } } (runR [.addInt 2 (some "x"), .addInt 0 (some "y")] world64)
      (withChanges passive (fun _ o _ i => if i = 0 then .seq (.list []) else o i)) 20).1 = [[("x", 1), ("y", 1)], [("x", 1), ("y", 2)]] := by decide

-- the hypotheses of the theorems above: a tuple and a list, the list not changed; another list is
example : HandsOff objs64 [.addInt 2 (some "x"), .addInt 0 (some "y"), .change 3 (.seq (.list [5])), .call (.addAllDiff ["x", "y"])] := by
  intro r n h
  simp only [List.mem_cons, List.not_mem_nil, or_false, RCall.addInt.injEq, reduceCtorEq] at h
  rcases h with ⟨rfl, _⟩ | ⟨rfl, _⟩
  · exact .inl trivial
  · refine .inr ⟨⟨_, rfl⟩, fun o' ho => ?_⟩
    simp at ho
example : (rRun { solver := {} } (runR [.addInt 2 (some "x"), .addInt 0 (some "y"), .call (.addAllDiff ["x", "y"])] world64) (withChanges passive (fun _ o _ => o)) 20).1.length = 2 := by
  decide
-- `y` has a list that is emptied during the iteration, but also a constraint of its own: sheltered
example : Sheltered (runR [.addInt 0 (some "y"), .call (.addCon (.expr (.bin .gt (.var "y") (.const 0))))] world64) [⟨0, .expr (.bin .gt (.var "y") (.const 0))⟩]
    (fun _ o _ i => if i = 0 then .seq (.list []) else o i) "y" :=
  .inr (.inl ⟨⟨0, .expr (.bin .gt (.var "y") (.const 0))⟩, List.mem_singleton.2 rfl, by decide, nofun⟩)
-- an iterator: the model is not sized
example : ¬ Sized (runR [.addInt 1 (some "x")] world64) := by
  intro h
  obtain ⟨s, hs⟩ := h "x" [1, 2] (by decide)
  have h2 : ((runR [.addInt 1 (some "x")] world64).dom "x").obj (runR [.addInt 1 (some "x")] world64).objs = .iter [] := by decide
  rw [h2] at hs
  cases hs

end Satisfy.Props
