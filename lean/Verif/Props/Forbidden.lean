import Verif.Lemmas.Forbidden
import Verif.Props.Solver
/-!
# The search with forbidden values: C58
-/

namespace Satisfy.Props
open Satisfy

theorem nbr_of_setup {a : SolveArgs} {m : Model} {h H : Heap} {info : Info} (hids : SameIds (m.constraints ++ a.adds))
    (hset : setup a.solver.compile m a.adds h = (H, .ok info)) : Nbr info := by
  obtain ⟨_, hinv, _⟩ := setup_spec hids hset
  refine ⟨fun x y hy => ?_, fun x hx => ((hinv.ad x x).1 hx).1 rfl⟩
  obtain ⟨hne, c, hc, had, h1, h2⟩ := (hinv.ad x y).1 hy
  exact (hinv.ad y x).2 ⟨fun e => hne e.symm, c, hc, had, h2, h1⟩

/-- The policies that `_solve_forbidden` knows (ORDERED being what it does otherwise). -/
def Known (p : Policy) : Prop := p = .ordered ∨ p = .groups ∨ p = .random ∨ p = .reversed

theorem fOrder_known {p : Policy} (hp : Known p) (sh : List Name → List Name) (m : Model) (info : Info) :
    fOrder p sh m info = orderVars p sh m info := by
  rcases hp with rfl | rfl | rfl | rfl <;> rfl

/-- C58 as far as it goes: on a solvable model with variables and with one of the policies that it knows, `_solve_forbidden` hands out the
first solution of `solve`, if there is one, and after the same number of steps; until then, or if there is none, it ends or raises as
`solve` does (`i` is the flag left by an earlier call). Missing: everything after the first solution (`C58_refuted`), models
without variables (`C58_refuted_empty`), unsolvable models (`C58_refuted_unsolvable`), the other policies (`C58_policy`). -/
theorem C58_first_partial {a : SolveArgs} {m : Model} {h : Heap} (hok : SolveOk a m h) (hsol : m.solvable = true)
    (hvar : ∃ x, (m.domain? x).isSome) (hp : Known a.solver.policy) (i : Option Interrupt) (n : Nat) :
    (forbiddenRun a m i n h).1 = (solveRun a m passive n h).1.take 1 ∧
    ((solveRun a m passive n h).1 = [] →
      (forbiddenRun a m i n h).2.1.phase = (solveRun a m passive n h).2.1.phase ∧
      (forbiddenRun a m i n h).2.1.interrupt = ((solveRun a m passive n h).2.1.interrupt).or i) := by
  cases startCase (a := a) m h hok.shuffle with
  | idle _ h2 =>
    rcases h2 with h2 | h2
    · rw [h2] at hsol; cases hsol
    · obtain ⟨x, hx⟩ := hvar
      rw [← pureVars_get? hok.wf.names] at hx
      obtain ⟨v, hv⟩ := Option.isSome_iff_exists.1 hx
      have := Dict.mem_keys_of_get? hv
      rw [h2] at this; simp at this
  | fail e h1 _ h3 =>
    rw [solveRun_idle (ph := .raised e) trivial h1]
    have : startForbidden a m i h = ((setup a.solver.compile m a.adds h).1, .init m, ⟨⟨[], []⟩, fun _ => [], .new, 0, i, .raised e⟩) := by
      unfold startForbidden
      rcases hs : setup a.solver.compile m a.adds h with ⟨H, r⟩
      rw [hs] at h3
      simp only at h3
      subst h3
      rfl
    unfold forbiddenRun
    rw [this]
    simp only
    rw [fRun_stopped n (by trivial)]
    exact ⟨rfl, fun _ => ⟨rfl, rfl⟩⟩
  | go H info _ hset hst hne hperm =>
    have hnd := hperm.nodup_iff.2 (pureVars_nodup hok.wf.names)
    have hstart : startForbidden a m i h = (H, info, ⟨⟨[(orderVars a.solver.policy a.shuffle m info, [])], []⟩, fun _ => [],
        ⟨0, some (a.clock 0), 0⟩, 1, i, .running⟩) := by
      unfold startForbidden
      rw [hset]
      simp only [fOrder_known hp]
      rfl
    have hrel : FRunning info i ⟨⟨[(orderVars a.solver.policy a.shuffle m info, [])], []⟩, fun _ => [],
        ⟨0, some (a.clock 0), 0⟩, 1, i, .running⟩ (Gen.first (orderVars a.solver.policy a.shuffle m info) (a.clock 0)) := by
      refine ⟨⟨rfl, rfl⟩, rfl, rfl, rfl, rfl, ⟨⟨?_, ?_, hnd, trivial, trivial⟩, ?_, ?_⟩, rfl⟩
      · cases ho : orderVars a.solver.policy a.shuffle m info with
        | nil => exact absurd ho hne
        | cons x rest => exact ⟨x, rest, rfl, fun y v => by simp⟩
      · intro z _; rfl
      · intro c; simp [Dict.keys]
      · intro x rest σ K he c hc
        simp only [List.cons.injEq, Prod.mk.injEq] at he
        obtain ⟨⟨_, rfl⟩, _⟩ := he
        exact ⟨fun y _ v => by simp, fun h => absurd rfl h⟩
    obtain ⟨h1, h2, _⟩ := fRun_same (nbr_of_setup hok.ids hset) a.cfg H n hrel
    rw [solveRun_eq, hst]
    unfold forbiddenRun
    rw [hstart]
    simp only
    exact ⟨h1, fun he => ⟨(h2 he).phase, (h2 he).interrupt⟩⟩

/-- There is never a second solution: whoever asks for it gets a `NameError` (whatever the model and the settings). -/
theorem C58_one (a : SolveArgs) (m : Model) (h : Heap) (i : Option Interrupt) (n : Nat) :
    (forbiddenRun a m i n h).1.length ≤ 1 ∧
    ((forbiddenRun a m i n h).1 ≠ [] → ∀ k > n, (forbiddenRun a m i k h).2.1.phase = .raised (.nameError "limit")) := by
  have key : ∀ (cfg : RunCfg) (info : Info) (H : Heap) (n : Nat) (f : FGen),
      (fRun cfg info H n f).1.length ≤ 1 ∧
      ((fRun cfg info H n f).1 ≠ [] → ∀ k > n, (fRun cfg info H k f).2.phase = .raised (.nameError "limit")) := by
    intro cfg info H n
    induction n with
    | zero => intro f; exact ⟨by simp [fRun], fun h => absurd rfl h⟩
    | succ n ih =>
      intro f
      cases hp : f.phase with
      | running =>
        cases hq : (f.step cfg info H).phase with
        | suspended σ =>
          refine ⟨?_, fun _ k hk => ?_⟩
          · simp only [fRun, hp, hq, Phase.output]
            cases n with
            | zero => simp [fRun]
            | succ n => simp [fRun_suspended n hq]
          · obtain ⟨k, rfl⟩ : ∃ k', k = k' + 1 + 1 := ⟨k - 2, by omega⟩
            rw [fRun]
            simp only [fRun_suspended k hq]
        | running =>
          simp only [fRun, hp, hq, Phase.output, List.nil_append]
          refine ⟨(ih _).1, fun hne k hk => ?_⟩
          obtain ⟨k, rfl⟩ : ∃ k', k = k' + 1 := ⟨k - 1, by omega⟩
          exact (ih _).2 hne k (by omega)
        | finished =>
          simp only [fRun, hp, hq, Phase.output, fRun_stopped n (show (f.step cfg info H).phase.terminal by rw [hq]; trivial)]
          simp
        | raised e =>
          simp only [fRun, hp, hq, Phase.output, fRun_stopped n (show (f.step cfg info H).phase.terminal by rw [hq]; trivial)]
          simp
      | suspended σ => rw [fRun_suspended n hp]; simp
      | finished => rw [fRun_stopped (n + 1) (show f.phase.terminal by rw [hp]; trivial)]; simp
      | raised e => rw [fRun_stopped (n + 1) (show f.phase.terminal by rw [hp]; trivial)]; simp
  exact key _ _ _ _ _

/-- The full claim: the same solutions as `solve` (with whatever was left in the flag). -/
def C58 : Prop := ∀ (a : SolveArgs) (m : Model) (h : Heap) (i : Option Interrupt), SolveOk a m h → ∀ n,
  (forbiddenRun a m i n h).1 = (solveRun a m passive n h).1

/-- Of the two solutions of the running example only the first is handed out. -/
theorem C58_refuted : ¬ C58 := by
  intro hC
  have := hC exArgs exModel exHeap none exOk 12
  have h1 := (C58_one exArgs exModel exHeap none 12).1
  rw [this] at h1
  revert h1
  decide

/-- No variables: `IndexError` where `solve` ends without a solution. -/
theorem C58_refuted_empty (a : SolveArgs) (ht : a.solver.timeout = none) (ha : a.adds = []) (hs : ∀ l, (a.shuffle l).Perm l) (h : Heap)
    (i : Option Interrupt) (n : Nat) :
    (forbiddenRun a .empty i (n + 1) h).2.1.phase = .raised .indexError ∧ (solveRun a .empty passive (n + 1) h).2.1.phase = .finished := by
  have hset : setup a.solver.compile .empty a.adds h = (h, .ok (.init .empty)) := by rw [ha]; rfl
  have hnil : ∀ p, fOrder p a.shuffle .empty (.init .empty) = [] := by
    intro p
    cases p <;> simp only [fOrder] <;> first | rfl | exact (hs []).eq_nil
  constructor
  · unfold forbiddenRun startForbidden
    rw [hset]
    simp only [Timer.doStart, Timer.running, Timer.new, hnil]
    have : ∀ (t : Timer), (FGen.loop a.cfg (.init .empty) h ⟨⟨[([], [])], []⟩, fun _ => [], t, 1, i, .running⟩).phase = .raised .indexError := by
      intro t
      simp [FGen.loop, FGen.timedOut, SolveArgs.cfg, ht, fStep]
    have h2 := this ⟨0, some (a.clock 0), 0⟩
    simp only [Option.isSome_none, Bool.false_eq_true, if_false, fRun, FGen.step]
    rw [fRun_stopped n (by rw [h2]; trivial)]
    exact h2
  · have : (startSolve a .empty h).2.2 = Gen.idle .finished := by
      unfold startSolve
      rw [hset]
      cases hp : a.solver.policy <;> simp only [orderVars, Info.init, Model.pureVars, Model.empty, Dict.keys] <;> try rfl
      have := (hs []).eq_nil
      simp [this]
    rw [solveRun_idle (ph := .finished) trivial this]
    rfl

/-- A model with the constraint `False`: `solve` yields nothing, `_solve_forbidden` a solution. -/
theorem C58_refuted_unsolvable :
    let m : Model := { exModel with constraints := [⟨0, .const false⟩], solvable := false }
    (solveRun exArgs m passive 12 exHeap).1 = [] ∧ (forbiddenRun exArgs m none 12 exHeap).1 = [[("y", 3), ("x", 1)]] := by
  decide

/-- The policies by bounds or constraints are not looked at: the variables are taken in their order. -/
theorem C58_policy (a : SolveArgs) (m : Model) (h : Heap) (i : Option Interrupt) (n : Nat) (hp : ¬ Known a.solver.policy) :
    forbiddenRun a m i n h = forbiddenRun { a with solver := { a.solver with policy := .ordered } } m i n h := by
  have : fOrder a.solver.policy = fOrder .ordered := by
    funext sh m info
    cases ha : a.solver.policy <;> simp [Known, ha] at hp <;> rfl
  unfold forbiddenRun startForbidden
  simp only [this]
  rfl

-- the first of the two solutions of the running example
example : (forbiddenRun exArgs exModel none 12 exHeap).1 = [[("y", 3), ("x", 1)]] ∧
    (solveRun exArgs exModel passive 12 exHeap).1 = [[("y", 3), ("x", 1)], [("y", 1), ("x", 3)]] := by decide

end Satisfy.Props
