import Verif.Search
import Verif.Lemmas.Dict
/-!
The search loop refines a recursive depth-first search, whatever the candidate function and the
consumer; limit and timeout cut the sequence of outputs.
-/

namespace Satisfy

variable {S : Type}

/-! ## Recursive search -/

def dfsVals (f : Int → S → List Subst × Res S) : List Int → S → List Subst × Res S
  | [], s => ([], .ok s)
  | v :: vs, s => match f v s with
    | (o, .error e) => (o, .error e)
    | (o, .ok s') => (o ++ (dfsVals f vs s').1, (dfsVals f vs s').2)

/-- Depth-first enumeration: outputs and final consumer state. -/
def dfs (cand : S → Name → Subst → Res (List Int)) (act : S → Subst → Res S) :
    List Name → Subst → S → List Subst × Res S
  | [], σ, s => ([σ], act s σ)
  | x :: xs, σ, s => match cand s x σ with
    | .error e => ([], .error e)
    | .ok vs => dfsVals (fun v s => dfs cand act xs (σ.set x v) s) vs s

/-! ## The loop without limit and timeout -/

inductive BSt (S : Type) where
  | run (s : Search) (x : S)
  | done (x : S)
  | raised (e : Err)

section
variable (cand : S → Name → Subst → Res (List Int)) (act : S → Subst → Res S)

def bStep : BSt S → List Subst × BSt S
  | .run s x => match s.step (cand x) with
    | .silent s' => ([], .run s' x)
    | .yield σ s' => match act x σ with
      | .ok x' => ([σ], .run s' x')
      | .error e => ([σ], .raised e)
    | .done => ([], .done x)
    | .raised e => ([], .raised e)
  | b => ([], b)

def bRun : Nat → BSt S → List Subst × BSt S
  | 0, b => ([], b)
  | n + 1, b => ((bStep cand act b).1 ++ (bRun n (bStep cand act b).2).1, (bRun n (bStep cand act b).2).2)

theorem bRun_add (n m : Nat) (b : BSt S) : bRun cand act (n + m) b =
    ((bRun cand act n b).1 ++ (bRun cand act m (bRun cand act n b).2).1, (bRun cand act m (bRun cand act n b).2).2) := by
  induction n generalizing b with
  | zero => simp [bRun]
  | succ n ih =>
    rw [Nat.succ_add, bRun, bRun, ih]
    simp

/-- State reached after the part of the search below a stack entry is finished. -/
def post (K : List (List Name × Subst)) (D : Dict (List Int)) : Res S → BSt S
  | .ok s => .run ⟨K, D⟩ s
  | .error e => .raised e

theorem bRun_trans {n : Nat} {b b' : BSt S} {o o' : List Subst} {b'' : BSt S}
    (h : bRun cand act n b = (o, b')) (h' : ∃ m, bRun cand act m b' = (o', b'')) :
    ∃ m, bRun cand act m b = (o ++ o', b'') := by
  obtain ⟨m, hm⟩ := h'
  exact ⟨n + m, by rw [bRun_add, h, hm]⟩

theorem step_entry {x : Name} {rest : List Name} {σ : Subst} {K : List (List Name × Subst)}
    {D : Dict (List Int)} (h : D.get? x = none) (c : Name → Subst → Res (List Int)) :
    Search.step c ⟨(x :: rest, σ) :: K, D⟩ = match c x σ with
      | .error e => .raised e
      | .ok [] => .silent ⟨K, D⟩
      | .ok (v :: vs) => Search.take ⟨(x :: rest, σ) :: K, D⟩ x rest σ v vs := by
  simp only [Search.step, h]
  cases c x σ with
  | error e => rfl
  | ok vs => cases vs <;> rfl

/-- The loop over the remaining values `vs` of the top variable. -/
theorem refine_vals (x : Name) (xs : List Name) (hx : x ∉ xs)
    (ih : ∀ (y : Name) (ys : List Name), xs = y :: ys → ∀ σ K D s, (∀ z ∈ xs, D.get? z = none) →
      ∃ n, bRun cand act n (.run ⟨(xs, σ) :: K, D⟩ s) = ((dfs cand act xs σ s).1, post K D (dfs cand act xs σ s).2))
    (σ : Subst) (K : List (List Name × Subst)) (D : Dict (List Int)) (hD : ∀ z ∈ x :: xs, D.get? z = none)
    (vs : List Int) : ∀ s : S,
    (∃ n, bRun cand act n (.run ⟨(x :: xs, σ) :: K, D.set x vs⟩ s) =
      ((dfsVals (fun v s => dfs cand act xs (σ.set x v) s) vs s).1,
        post K D (dfsVals (fun v s => dfs cand act xs (σ.set x v) s) vs s).2)) ∧
    (∀ v D', D'.set x vs = D.set x vs → ∀ n0 b0, bRun cand act n0 b0 = ([], b0) →
      Search.step (cand s) ⟨(x :: xs, σ) :: K, D'⟩ = Search.take ⟨(x :: xs, σ) :: K, D'⟩ x xs σ v vs →
      ∃ n, bRun cand act n (.run ⟨(x :: xs, σ) :: K, D'⟩ s) =
        ((dfsVals (fun v s => dfs cand act xs (σ.set x v) s) (v :: vs) s).1,
          post K D (dfsVals (fun v s => dfs cand act xs (σ.set x v) s) (v :: vs) s).2)) := by
  -- second part from the first part for the same `vs`
  have second : ∀ vs : List Int, (∀ s : S, ∃ n, bRun cand act n (.run ⟨(x :: xs, σ) :: K, D.set x vs⟩ s) =
      ((dfsVals (fun v s => dfs cand act xs (σ.set x v) s) vs s).1,
        post K D (dfsVals (fun v s => dfs cand act xs (σ.set x v) s) vs s).2)) →
      ∀ (s : S) v D', D'.set x vs = D.set x vs →
      Search.step (cand s) ⟨(x :: xs, σ) :: K, D'⟩ = Search.take ⟨(x :: xs, σ) :: K, D'⟩ x xs σ v vs →
      ∃ n, bRun cand act n (.run ⟨(x :: xs, σ) :: K, D'⟩ s) =
        ((dfsVals (fun v s => dfs cand act xs (σ.set x v) s) (v :: vs) s).1,
          post K D (dfsVals (fun v s => dfs cand act xs (σ.set x v) s) (v :: vs) s).2) := by
    intro vs hvs s v D' hD' hstep
    cases xs with
    | nil =>
      simp only [Search.take, hD'] at hstep
      simp only [dfsVals, dfs]
      cases ha : act s (σ.set x v) with
      | error e =>
        refine ⟨1, ?_⟩
        simp [bRun, bStep, hstep, ha, post]
      | ok s' =>
        have h1 : bRun cand act 1 (.run ⟨([x], σ) :: K, D'⟩ s) = ([σ.set x v], .run ⟨([x], σ) :: K, D.set x vs⟩ s') := by
          simp [bRun, bStep, hstep, ha]
        obtain ⟨m, hm⟩ := bRun_trans cand act h1 (hvs s')
        exact ⟨m, hm⟩
    | cons y ys =>
      simp only [Search.take, hD'] at hstep
      have h1 : bRun cand act 1 (.run ⟨(x :: y :: ys, σ) :: K, D'⟩ s) =
          ([], .run ⟨(y :: ys, σ.set x v) :: (x :: y :: ys, σ) :: K, D.set x vs⟩ s) := by
        simp [bRun, bStep, hstep]
      have hfresh : ∀ z ∈ y :: ys, (D.set x vs).get? z = none := by
        intro z hz
        rw [Dict.get?_set_ne]
        · exact hD z (List.mem_cons_of_mem _ hz)
        · rintro rfl; exact hx hz
      obtain ⟨n2, h2⟩ := ih y ys rfl (σ.set x v) ((x :: y :: ys, σ) :: K) (D.set x vs) s hfresh
      obtain ⟨n3, h3⟩ := bRun_trans cand act h1 ⟨n2, h2⟩
      simp only [List.nil_append] at h3
      rw [dfsVals]
      cases hd : dfs cand act (y :: ys) (σ.set x v) s with
      | mk o r =>
        rw [hd] at h3
        cases r with
        | error e => exact ⟨n3, h3⟩
        | ok s' => exact bRun_trans cand act h3 (hvs s')
  have first : ∀ (vs : List Int) (s : S), ∃ n, bRun cand act n (.run ⟨(x :: xs, σ) :: K, D.set x vs⟩ s) =
      ((dfsVals (fun v s => dfs cand act xs (σ.set x v) s) vs s).1,
        post K D (dfsVals (fun v s => dfs cand act xs (σ.set x v) s) vs s).2) := by
    intro vs
    induction vs with
    | nil =>
      intro s
      refine ⟨1, ?_⟩
      have : Search.step (cand s) ⟨(x :: xs, σ) :: K, D.set x []⟩ = .silent ⟨K, D⟩ := by
        simp only [Search.step, Dict.get?_set_self]
        rw [Dict.erase_set _ _ _ (hD x (by simp))]
      simp [bRun, bStep, this, dfsVals, post]
    | cons v vs ihv =>
      intro s
      refine second vs ihv s v (D.set x (v :: vs)) (Dict.set_set _ _ _ _) ?_
      simp only [Search.step, Dict.get?_set_self]
  intro s
  exact ⟨first vs s, fun v D' hD' _ _ _ hstep => second vs (first vs) s v D' hD' hstep⟩

/-- **Refinement.** The loop started on a stack entry `(x :: xs, σ)` hands out exactly what the recursive
search hands out, then returns to the entry below (or ends with the same exception). -/
theorem refine (xs : List Name) : ∀ (_ : xs ≠ []) (_ : xs.Nodup) (σ : Subst) (K : List (List Name × Subst))
    (D : Dict (List Int)) (s : S), (∀ z ∈ xs, D.get? z = none) →
    ∃ n, bRun cand act n (.run ⟨(xs, σ) :: K, D⟩ s) = ((dfs cand act xs σ s).1, post K D (dfs cand act xs σ s).2) := by
  induction xs with
  | nil => intro h; exact absurd rfl h
  | cons x xs ih =>
    intro _ hn σ K D s hD
    have hx : x ∉ xs := (List.nodup_cons.1 hn).1
    have ih' : ∀ (y : Name) (ys : List Name), xs = y :: ys → ∀ σ K D s, (∀ z ∈ xs, D.get? z = none) →
      ∃ n, bRun cand act n (.run ⟨(xs, σ) :: K, D⟩ s) = ((dfs cand act xs σ s).1, post K D (dfs cand act xs σ s).2) := by
      intro y ys he σ K D s hD
      exact ih (by rw [he]; simp) (List.nodup_cons.1 hn).2 σ K D s hD
    have hstep := step_entry (σ := σ) (K := K) (rest := xs) (hD x (by simp)) (cand s)
    rw [dfs]
    cases hc : cand s x σ with
    | error e =>
      rw [hc] at hstep
      exact ⟨1, by simp [bRun, bStep, hstep, post]⟩
    | ok vs =>
      rw [hc] at hstep
      cases vs with
      | nil => exact ⟨1, by simp [bRun, bStep, hstep, dfsVals, post]⟩
      | cons v vs =>
        exact (refine_vals cand act x xs hx ih' σ K D hD vs s).2 v D rfl 0 (.run ⟨[], []⟩ s) rfl hstep

/-- The whole loop: outputs and outcome of the recursive search. -/
def finalB : Res S → BSt S
  | .ok s => .done s
  | .error e => .raised e

theorem refine_top (xs : List Name) (hne : xs ≠ []) (hn : xs.Nodup) (s : S) :
    ∃ n, bRun cand act n (.run ⟨[(xs, [])], []⟩ s) = ((dfs cand act xs [] s).1, finalB (dfs cand act xs [] s).2) := by
  obtain ⟨n, h⟩ := refine cand act xs hne hn [] [] [] s (by simp)
  cases hr : (dfs cand act xs [] s).2 with
  | error e => rw [hr] at h; exact ⟨n, h⟩
  | ok s' =>
    rw [hr] at h
    obtain ⟨m, hm⟩ := bRun_trans cand act h ⟨1, show bRun cand act 1 (post [] [] (.ok s')) = ([], .done s') from by
      simp [bRun, post, bStep, Search.step]⟩
    exact ⟨m, by simpa [finalB] using hm⟩

end

/-! ## Limit, timeout and timer -/

section
variable (cfg : RunCfg) (cand : S → Name → Subst → Res (List Int)) (act : S → Subst → Res S)

theorem sysRun_succ (n : Nat) (g : Gen) (s : S) : sysRun cfg cand act (n + 1) g s =
    ((match g.phase with | .running => (sysStep cfg cand act g s).1.phase.output | _ => []) ++
      (sysRun cfg cand act n (sysStep cfg cand act g s).1 (sysStep cfg cand act g s).2).1,
     (sysRun cfg cand act n (sysStep cfg cand act g s).1 (sysStep cfg cand act g s).2).2) := rfl

theorem sysRun_add (n m : Nat) (g : Gen) (s : S) : sysRun cfg cand act (n + m) g s =
    ((sysRun cfg cand act n g s).1 ++
      (sysRun cfg cand act m (sysRun cfg cand act n g s).2.1 (sysRun cfg cand act n g s).2.2).1,
     (sysRun cfg cand act m (sysRun cfg cand act n g s).2.1 (sysRun cfg cand act n g s).2.2).2) := by
  induction n generalizing g s with
  | zero => simp [sysRun]
  | succ n ih =>
    rw [Nat.succ_add, sysRun_succ, sysRun_succ, ih]
    simp

/-- The generator can make no further step. -/
def Phase.terminal : Phase → Prop
  | .finished => True
  | .raised _ => True
  | _ => False

theorem sysRun_terminal {g : Gen} (h : g.phase.terminal) (n : Nat) (s : S) :
    sysRun cfg cand act n g s = ([], g, s) := by
  induction n with
  | zero => rfl
  | succ n ih =>
    have hs : sysStep cfg cand act g s = (g, s) := by
      unfold sysStep
      cases hp : g.phase <;> simp_all [Phase.terminal]
    rw [sysRun_succ, hs, ih]
    cases hp : g.phase <;> simp_all [Phase.terminal]

/-- Prefixes: whatever has been handed out at some point stays the beginning. -/
theorem sysRun_prefix {n N : Nat} (h : n ≤ N) (g : Gen) (s : S) :
    (sysRun cfg cand act n g s).1 <+: (sysRun cfg cand act N g s).1 := by
  obtain ⟨m, rfl⟩ := Nat.exists_eq_add_of_le h
  rw [sysRun_add]
  exact List.prefix_append _ _

theorem sysRun_stable {n N : Nat} (h : N ≤ n) (g : Gen) (s : S) (ht : (sysRun cfg cand act N g s).2.1.phase.terminal) :
    sysRun cfg cand act n g s = sysRun cfg cand act N g s := by
  obtain ⟨m, rfl⟩ := Nat.exists_eq_add_of_le h
  rw [sysRun_add, sysRun_terminal _ _ _ ht]
  simp

/-- How an iteration ends: naturally, by timeout, or by limit; `num` solutions were handed out before. -/
inductive EndsAs (cfg : RunCfg) (act : S → Subst → Res S) (num : Nat) (outs : List Subst) (b : BSt S)
    (outs' : List Subst) (g' : Gen) (s' : S) : Prop
  | natural : outs' = outs → g'.interrupt = none → (∀ s, b = .done s → g'.phase = .finished ∧ s' = s) →
      (∀ e, b = .raised e → g'.phase = .raised e) →
      ((∀ s σ e, act s σ ≠ .error e) → outs' = [] ∨ ∀ l, cfg.limit = some l → ((num + outs'.length : Nat) : Int) < l) →
      EndsAs cfg act num outs b outs' g' s'
  | timeout : outs' <+: outs → g'.phase = .finished → g'.interrupt = some .timeout → cfg.timeout.isSome →
      ((∀ s σ e, act s σ ≠ .error e) → outs' = [] ∨ ∀ l, cfg.limit = some l → ((num + outs'.length : Nat) : Int) < l) →
      EndsAs cfg act num outs b outs' g' s'
  | limit (l : Int) : outs' <+: outs → g'.phase = .finished → g'.interrupt = some .limit → cfg.limit = some l →
      outs'.length = max 1 (l - num).toNat → EndsAs cfg act num outs b outs' g' s'

def BSt.terminal : BSt S → Prop
  | .run _ _ => False
  | _ => True

theorem loop_nonempty {g : Gen} {c : Name → Subst → Res (List Int)} (ht : g.timedOut cfg = false) :
    ∃ t, g.loop cfg c = match g.search.step c with
    | .done => { g with tick := t, phase := .finished }
    | .raised e => { g with tick := t, phase := .raised e }
    | .silent s => { g with tick := t, search := s }
    | .yield σ s => match g.timer.doStop (cfg.clock t) with
      | .ok tm => { g with tick := t + 1, timer := tm, search := s, num := g.num + 1, phase := .suspended σ }
      | .error e => { g with tick := t, phase := .raised e } := by
  by_cases he : g.search.stack.isEmpty = true
  · have hs : g.search.step c = .done := by
      unfold Search.step
      cases hst : g.search.stack with
      | nil => rfl
      | cons a b => simp [hst] at he
    refine ⟨g.tick, ?_⟩
    simp [Gen.loop, he, hs]
  · simp only [Gen.loop, he, ht, Bool.false_eq_true, if_false]
    by_cases hto : cfg.timeout.isSome = true
    · refine ⟨g.tick + 1, ?_⟩
      simp only [hto, if_true]
      cases g.search.step c with
      | done => rfl
      | raised e => rfl
      | silent s => rfl
      | yield σ s =>
        simp only [Gen.withTimer]
        cases g.timer.doStop (cfg.clock (g.tick + 1)) <;> rfl
    · refine ⟨g.tick, ?_⟩
      simp only [hto, Bool.false_eq_true, if_false]
      cases g.search.step c with
      | done => rfl
      | raised e => rfl
      | silent s => rfl
      | yield σ s =>
        simp only [Gen.withTimer]
        cases g.timer.doStop (cfg.clock g.tick) <;> rfl

theorem stack_empty_done {s : Search} {c : Name → Subst → Res (List Int)} (h : s.stack.isEmpty = true) : s.step c = .done := by
  unfold Search.step
  cases hst : s.stack with
  | nil => rfl
  | cons a b => simp [hst] at h

theorem loop_timeout {g : Gen} {c : Name → Subst → Res (List Int)} (hne : g.search.stack.isEmpty = false)
    (ht : g.timedOut cfg = true) :
    g.loop cfg c = { g with interrupt := some .timeout, phase := .finished, tick := g.tick + 1 } := by
  simp [Gen.loop, hne, ht]

theorem resume_go {g : Gen} (h : ∀ l, cfg.limit = some l → (g.num : Int) < l) (hts : g.timer.start = none) :
    g.resume cfg = { g with timer := { g.timer with start := some (cfg.clock g.tick) }, tick := g.tick + 1,
                            phase := .running } := by
  unfold Gen.resume
  cases hc : cfg.limit with
  | none => simp [Timer.doStart, Timer.running, hts, Gen.withTimer]
  | some l =>
    have := h l hc
    have h' : ¬ ((g.num : Int) ≥ l) := by omega
    simp [h', Timer.doStart, Timer.running, hts, Gen.withTimer]

/-- **Ending of an iteration** under limit and timeout. -/
theorem sys_end (k : Nat) : ∀ (g : Gen) (s : S) (t0 : Int) (outs : List Subst) (b : BSt S),
    bRun cand act k (.run g.search s) = (outs, b) → b.terminal → g.phase = .running → g.interrupt = none →
    g.timer.start = some t0 →
    ∃ N, (sysRun cfg cand act N g s).2.1.phase.terminal ∧
      EndsAs cfg act g.num outs b (sysRun cfg cand act N g s).1 (sysRun cfg cand act N g s).2.1
        (sysRun cfg cand act N g s).2.2 := by
  induction k with
  | zero =>
    intro g s t0 outs b h hb
    simp only [bRun, Prod.mk.injEq] at h
    rw [← h.2] at hb; exact absurd hb (by simp [BSt.terminal])
  | succ k ih =>
    intro g s t0 outs b h hb hp hi hst
    by_cases hne : g.search.stack.isEmpty = true
    · -- loop ends
      have hd : g.search.step (cand s) = .done := stack_empty_done hne
      have hk : ∀ k, bRun cand act k (.done s) = ([], .done s) := by
        intro k; induction k with
        | zero => rfl
        | succ k ih => simp [bRun, bStep, ih]
      simp only [bRun, bStep, hd, hk, Prod.mk.injEq, List.nil_append] at h
      refine ⟨1, ?_, ?_⟩
      · simp [sysRun_succ, sysStep, hp, sysRun, Gen.loop, hne, Phase.terminal]
      · refine .natural ?_ ?_ ?_ ?_ ?_
        · simp [sysRun_succ, sysStep, hp, sysRun, Gen.loop, hne, Phase.output, h.1]
        · simp [sysRun_succ, sysStep, hp, sysRun, Gen.loop, hne, hi]
        · rintro s' rfl; simp [sysRun_succ, sysStep, hp, sysRun, Gen.loop, hne]; simpa using h.2
        · rintro e rfl; simp at h
        · intro _; left; simp [sysRun_succ, sysStep, hp, sysRun, Gen.loop, hne, Phase.output]
    · have hne : g.search.stack.isEmpty = false := by simpa using hne
      by_cases hto : g.timedOut cfg = true
      · -- timeout
        have hl := loop_timeout cfg (c := cand s) hne hto
        refine ⟨1, ?_, ?_⟩
        · simp [sysRun_succ, sysStep, hp, sysRun, hl, Phase.terminal]
        · refine .timeout ?_ ?_ ?_ ?_ ?_
          · simp [sysRun_succ, sysStep, hp, sysRun, hl, Phase.output]
          · simp [sysRun_succ, sysStep, hp, sysRun, hl]
          · simp [sysRun_succ, sysStep, hp, sysRun, hl]
          · unfold Gen.timedOut at hto; cases hc : cfg.timeout <;> simp_all
          · intro _; left; simp [sysRun_succ, sysStep, hp, sysRun, hl, Phase.output]
      · have hto : g.timedOut cfg = false := by simpa using hto
        obtain ⟨t, hl⟩ := loop_nonempty cfg (c := cand s) hto
        cases hstep : g.search.step (cand s) with
        | done =>
          exfalso
          revert hstep
          unfold Search.step
          cases hstk : g.search.stack with
          | nil => simp [hstk] at hne
          | cons a K =>
            obtain ⟨us, σ⟩ := a
            cases us with
            | nil => simp
            | cons x rest =>
              simp only
              cases g.search.domains.get? x with
              | none =>
                simp only
                cases cand s x σ with
                | error e => simp
                | ok vs => cases vs <;> simp [Search.take]; cases rest <;> simp
              | some vs => cases vs <;> simp [Search.take]; cases rest <;> simp
        | raised e =>
          rw [hstep] at hl
          have hk : ∀ k, bRun cand act k (.raised e : BSt S) = ([], .raised e) := by
            intro k; induction k with
            | zero => rfl
            | succ k ih => simp [bRun, bStep, ih]
          simp only [bRun, bStep, hstep, hk, Prod.mk.injEq, List.nil_append] at h
          refine ⟨1, ?_, ?_⟩
          · simp [sysRun_succ, sysStep, hp, sysRun, hl, Phase.terminal]
          · refine .natural ?_ ?_ ?_ ?_ ?_
            · simp [sysRun_succ, sysStep, hp, sysRun, hl, Phase.output, h.1]
            · simp [sysRun_succ, sysStep, hp, sysRun, hl, hi]
            · rintro s' rfl; simp at h
            · rintro e' rfl; simp [sysRun_succ, sysStep, hp, sysRun, hl]; simpa using h.2
            · intro _; left; simp [sysRun_succ, sysStep, hp, sysRun, hl, Phase.output]
        | silent s2 =>
          rw [hstep] at hl
          simp only [bRun, bStep, hstep, List.nil_append, Prod.mk.injEq] at h
          have h' : bRun cand act k (.run (g.loop cfg (cand s)).search s) = (outs, b) := by
            rw [hl]; exact Prod.ext h.1 h.2
          obtain ⟨N, hN1, hN2⟩ := ih (g.loop cfg (cand s)) s t0 outs b h' hb (by rw [hl]; exact hp) (by rw [hl]; exact hi)
            (by rw [hl]; exact hst)
          have hss : sysStep cfg cand act g s = (g.loop cfg (cand s), s) := by simp [sysStep, hp]
          have hout : (g.loop cfg (cand s)).phase.output = [] := by rw [hl]; simp [hp, Phase.output]
          have hnum : (g.loop cfg (cand s)).num = g.num := by rw [hl]
          refine ⟨N + 1, ?_⟩
          simp only [sysRun_succ, hss, hp, hout, List.nil_append]
          rw [hnum] at hN2
          exact ⟨hN1, hN2⟩
        | yield σ s2 =>
          rw [hstep] at hl
          have hstop : g.timer.doStop (cfg.clock t) = .ok ⟨g.timer.elapsed + (cfg.clock t - t0), none, g.timer.count + 1⟩ := by
            simp [Timer.doStop, hst]
          rw [hstop] at hl
          simp only at hl
          have hss : sysStep cfg cand act g s = (g.loop cfg (cand s), s) := by simp [sysStep, hp]
          have hout : (Phase.suspended σ).output = [σ] := rfl
          have hph : (g.loop cfg (cand s)).phase = .suspended σ := by rw [hl]
          cases ha : act s σ with
          | error e =>
            have hk : ∀ k, bRun cand act k (.raised e : BSt S) = ([], .raised e) := by
              intro k; induction k with
              | zero => rfl
              | succ k ih => simp [bRun, bStep, ih]
            simp only [bRun, bStep, hstep, ha, hk, Prod.mk.injEq, List.append_nil] at h
            refine ⟨2, ?_⟩
            have hs2 : sysStep cfg cand act (g.loop cfg (cand s)) s =
                ({ g.loop cfg (cand s) with phase := .raised e }, s) := by simp [sysStep, hph, ha]
            simp only [sysRun_succ, hss, hp, hph, hout, hs2, sysRun, List.append_nil]
            refine ⟨trivial, ?_⟩
            refine .natural h.1 ?_ ?_ ?_ ?_
            · rw [hl]; exact hi
            · rintro s' rfl; simp at h
            · rintro e' rfl; simpa using h.2
            · intro hact; exact absurd ha (hact s σ e)
          | ok s' =>
            simp only [bRun, bStep, hstep, ha, Prod.mk.injEq, List.singleton_append] at h
            have hs2 : sysStep cfg cand act (g.loop cfg (cand s)) s = ((g.loop cfg (cand s)).resume cfg, s') := by
              simp [sysStep, hph, ha]
            have hnum : (g.loop cfg (cand s)).num = g.num + 1 := by rw [hl]
            have hts : (g.loop cfg (cand s)).timer.start = none := by rw [hl]
            by_cases hr : ∃ l, cfg.limit = some l ∧ ((g.num + 1 : Nat) : Int) ≥ l
            · obtain ⟨l, hl1, hl2⟩ := hr
              have hres : (g.loop cfg (cand s)).resume cfg =
                  { g.loop cfg (cand s) with interrupt := some .limit, phase := .finished } := by
                simp only [Gen.resume, hl1, hnum, hl2, decide_true, if_true, Timer.abort, Timer.running, hts,
                  Option.isSome_none, Bool.false_eq_true, if_false, Gen.withTimer]
              refine ⟨2, ?_⟩
              simp only [sysRun_succ, hss, hp, hph, hout, hs2, sysRun, List.append_nil, hres]
              refine ⟨trivial, .limit l ?_ rfl rfl hl1 ?_⟩
              · rw [← h.1]; exact ⟨_, rfl⟩
              · simp; omega
            · have hres : (g.loop cfg (cand s)).resume cfg = { g.loop cfg (cand s) with
                  timer := { (g.loop cfg (cand s)).timer with start := some (cfg.clock (g.loop cfg (cand s)).tick) },
                  tick := (g.loop cfg (cand s)).tick + 1, phase := .running } := by
                refine resume_go cfg ?_ hts
                intro l hll
                rw [hnum]
                by_contra hc
                exact hr ⟨l, hll, by simpa using hc⟩
              have h' : bRun cand act k (.run ((g.loop cfg (cand s)).resume cfg).search s') =
                  ((bRun cand act k (.run s2 s')).1, b) := by
                rw [hres, hl]; exact Prod.ext rfl h.2
              obtain ⟨N, hN1, hN2⟩ := ih _ s' _ _ b h' hb (by rw [hres]) (by rw [hres, hl]; exact hi) (by rw [hres])
              refine ⟨N + 2, ?_⟩
              have hnum2 : ((g.loop cfg (cand s)).resume cfg).num = g.num + 1 := by rw [hres, hl]
              rw [hnum2] at hN2
              simp only [sysRun_succ, hss, hp, hph, hout, hs2, List.nil_append, List.singleton_append]
              refine ⟨hN1, ?_⟩
              rw [← h.1]
              cases hN2 with
              | natural h1 h2 h3 h4 h5 =>
                refine .natural (by rw [h1]) h2 h3 h4 ?_
                intro hact; right
                intro l hll
                rcases h5 hact with h5 | h5
                · rw [h5]
                  by_contra hc
                  exact hr ⟨l, hll, by simpa using hc⟩
                · have := h5 l hll; simp only [List.length_cons]; omega
              | timeout h1 h2 h3 h4 h5 =>
                refine .timeout (by simpa using h1) h2 h3 h4 ?_
                intro hact; right
                intro l hll
                rcases h5 hact with h5 | h5
                · rw [h5]
                  by_contra hc
                  exact hr ⟨l, hll, by simpa using hc⟩
                · have := h5 l hll; simp only [List.length_cons]; omega
              | limit l h1 h2 h3 h4 h5 =>
                refine .limit l (by simpa using h1) h2 h3 h4 ?_
                have : ¬ ((g.num + 1 : Nat) : Int) ≥ l := fun hh => hr ⟨l, h4, hh⟩
                simp only [List.length_cons, h5]
                omega
end

end Satisfy
