import Verif.Timer
/-!
# The search loop of `Solver.solve` (solver.py:220-283)

The loop is generic in how the candidate values of a variable are computed (`cand`, solver.py:241-258)
so that the same machine serves `solve` and `optimize`.
-/

namespace Satisfy

/-- The local variables `stack` and `domains` (solver.py:220-222). The head of the list is the top of
the stack. -/
structure Search where
  stack : List (List Name × Subst)
  domains : Dict (List Int)

/-- What one pass through the loop body does. -/
inductive Ev where
  | silent (s : Search)
  | yield (σ : Subst) (s : Search)
  | done
  | raised (e : Err)

/-- solver.py:268-283: take `value` from the domain list (whose rest is `vs`), then push or yield. -/
def Search.take (s : Search) (x : Name) (rest : List Name) (σ : Subst) (v : Int) (vs : List Int) : Ev :=
  let d := s.domains.set x vs
  let σ' := σ.set x v
  match rest with
  | [] => .yield σ' ⟨s.stack, d⟩
  | _ :: _ => .silent ⟨(rest, σ') :: s.stack, d⟩

/-- One pass through the loop body without the timeout check (solver.py:234-283). -/
def Search.step (cand : Name → Subst → Res (List Int)) (s : Search) : Ev :=
  match s.stack with
  | [] => .done
  | ([], _) :: _ => .raised .indexError
  | (x :: rest, σ) :: stack' =>
    match s.domains.get? x with
    | none =>
      match cand x σ with
      | .error e => .raised e
      | .ok [] => .silent ⟨stack', s.domains⟩
      | .ok (v :: vs) => s.take x rest σ v vs
    | some [] => .silent ⟨stack', s.domains.erase x⟩
    | some (v :: vs) => s.take x rest σ v vs

/-- State of the generator. -/
inductive Phase where
  | running
  | suspended (σ : Subst)   -- at the `yield` with this solution
  | finished                -- `return` or end of the loop: StopIteration
  | raised (e : Err)        -- an exception escaped

/-- `self._interrupt` (solver.py:231, 280). -/
inductive Interrupt where | timeout | limit
  deriving DecidableEq

/-- The generator object: its local variables, timer and interrupt flag. `tick` counts the calls of
`time.time()`. -/
structure Gen where
  search : Search
  timer : Timer
  tick : Nat
  num : Nat
  interrupt : Option Interrupt
  phase : Phase

/-- What does not change during an iteration: the limits and the clock (`clock k` is the result of the
`k`-th call of `time.time()`). -/
structure RunCfg where
  timeout : Option Int
  limit : Option Int
  clock : Nat → Int

/-- Lift a timer operation that reads the clock once. -/
def Gen.withTimer (g : Gen) (r : Res Timer) (k : Gen → Gen) : Gen :=
  match r with
  | .ok t => k { g with timer := t, tick := g.tick + 1 }
  | .error e => { g with phase := .raised e }

/-- The timeout check at the head of the loop (solver.py:228-232). -/
def Gen.timedOut (cfg : RunCfg) (g : Gen) : Bool :=
  match cfg.timeout with
  | none => false
  | some t => decide (g.timer.elapsedAt (cfg.clock g.tick) > t)

/-- One pass through the `while` loop (solver.py:227-277). -/
def Gen.loop (cfg : RunCfg) (cand : Name → Subst → Res (List Int)) (g : Gen) : Gen :=
  if g.search.stack.isEmpty then { g with phase := .finished }
  else if g.timedOut cfg then { g with interrupt := some .timeout, phase := .finished, tick := g.tick + 1 }
  else
    let g := if cfg.timeout.isSome then { g with tick := g.tick + 1 } else g
    match g.search.step cand with
    | .done => { g with phase := .finished }
    | .raised e => { g with phase := .raised e }
    | .silent s => { g with search := s }
    | .yield σ s => g.withTimer (g.timer.doStop (cfg.clock g.tick))
        (fun g => { g with search := s, num := g.num + 1, phase := .suspended σ })

/-- Resumption after the `yield` (solver.py:278-282). -/
def Gen.resume (cfg : RunCfg) (g : Gen) : Gen :=
  let reached : Bool := match cfg.limit with
    | none => false
    | some l => decide ((g.num : Int) ≥ l)
  if reached then
    g.withTimer (g.timer.abort (cfg.clock g.tick))
      (fun g' => { g' with tick := g.tick, interrupt := some .limit, phase := .finished })
  else
    g.withTimer (g.timer.doStart (cfg.clock g.tick)) (fun g => { g with phase := .running })

section
variable {S : Type}

/-- One step of the generator together with its consumer.  When the generator is suspended the consumer
runs `act` (on state `s`, e.g. tightening the bounds in `optimize`) and asks for the next solution;
an exception of the consumer ends the iteration. -/
def sysStep (cfg : RunCfg) (cand : S → Name → Subst → Res (List Int)) (act : S → Subst → Res S)
    (g : Gen) (s : S) : Gen × S :=
  match g.phase with
  | .running => (g.loop cfg (cand s), s)
  | .suspended σ => match act s σ with
    | .ok s' => (g.resume cfg, s')
    | .error e => ({ g with phase := .raised e }, s)
  | _ => (g, s)

/-- The solution handed out by reaching this state. -/
def Phase.output : Phase → List Subst
  | .suspended σ => [σ]
  | _ => []

/-- `n` steps: everything handed out on the way, and the state reached. -/
def sysRun (cfg : RunCfg) (cand : S → Name → Subst → Res (List Int)) (act : S → Subst → Res S) :
    Nat → Gen → S → List Subst × Gen × S
  | 0, g, s => ([], g, s)
  | n + 1, g, s =>
    let (g', s') := sysStep cfg cand act g s
    let new := match g.phase with | .running => g'.phase.output | _ => []
    let (outs, r) := sysRun cfg cand act n g' s'
    (new ++ outs, r)

end

end Satisfy
