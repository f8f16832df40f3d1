import Verif.Solver
/-!
# The settings `timeout` and `limit` as they are given: constructor, setters, arguments of `solve`

`Solver.lean` takes both as `Option Int`. Here they are Python values: `None`, `INFINITY` or a number.
-/

namespace Satisfy

/-- `None`, `INFINITY` (utils.py:33-40, an object without an order) or a number. -/
inductive Setting where
  | none | infinity | num (n : Int)
  deriving DecidableEq

/-- The property setters `timeout` and `limit` (solver.py:71-75, 81-85), also used by the constructor (solver.py:47-50): the attribute afterwards. -/
def Setting.stored : Setting → Option Int
  | .none => Option.none
  | .infinity => Option.none
  | .num n => some n

/-- An attribute as a value again. -/
def Setting.ofStored : Option Int → Setting
  | Option.none => .none
  | some n => .num n

/-- `args.get('limit', self._limit)` (solver.py:156-157): `given` is the argument of the call, if there is one. -/
def Setting.effective (given : Option Setting) (own : Option Int) : Setting := given.getD (.ofStored own)

/-- The local variables `timeout` and `limit` of `solve`, and the clock. -/
structure RawCfg where
  timeout : Setting
  limit : Setting
  clock : Nat → Int

/-- `timeout is not None and cur_elapsed > timeout` (solver.py:228-230): comparing a number and `INFINITY` raises `TypeError`. -/
def Gen.rawTimedOut (cfg : RawCfg) (g : Gen) : Res Bool :=
  match cfg.timeout with
  | .none => .ok false
  | .infinity => .error .typeError
  | .num t => .ok (decide (g.timer.elapsedAt (cfg.clock g.tick) > t))

/-- One pass through the `while` loop (solver.py:227-277), as `Gen.loop`. -/
def Gen.rawLoop (cfg : RawCfg) (cand : Name → Subst → Res (List Int)) (g : Gen) : Gen :=
  if g.search.stack.isEmpty then { g with phase := .finished }
  else match g.rawTimedOut cfg with
    | .error e => { g with phase := .raised e, tick := g.tick + 1 }
    | .ok true => { g with interrupt := some .timeout, phase := .finished, tick := g.tick + 1 }
    | .ok false =>
      let g := if cfg.timeout ≠ .none then { g with tick := g.tick + 1 } else g
      match g.search.step cand with
      | .done => { g with phase := .finished }
      | .raised e => { g with phase := .raised e }
      | .silent s => { g with search := s }
      | .yield σ s => g.withTimer (g.timer.doStop (cfg.clock g.tick))
          (fun g => { g with search := s, num := g.num + 1, phase := .suspended σ })

/-- `limit is not None and num_solutions >= limit` (solver.py:278). -/
def Gen.rawReached (cfg : RawCfg) (g : Gen) : Res Bool :=
  match cfg.limit with
  | .none => .ok false
  | .infinity => .error .typeError
  | .num l => .ok (decide ((g.num : Int) ≥ l))

/-- Resumption after the `yield` (solver.py:278-282), as `Gen.resume`. -/
def Gen.rawResume (cfg : RawCfg) (g : Gen) : Gen :=
  match g.rawReached cfg with
  | .error e => { g with phase := .raised e }
  | .ok true => g.withTimer (g.timer.abort (cfg.clock g.tick))
      (fun g' => { g' with tick := g.tick, interrupt := some .limit, phase := .finished })
  | .ok false => g.withTimer (g.timer.doStart (cfg.clock g.tick)) (fun g => { g with phase := .running })

section
variable {S : Type}

/-- One step of the generator together with its consumer, as `sysStep`. -/
def rawStep (cfg : RawCfg) (cand : S → Name → Subst → Res (List Int)) (act : S → Subst → Res S) (g : Gen) (s : S) : Gen × S :=
  match g.phase with
  | .running => (g.rawLoop cfg (cand s), s)
  | .suspended σ => match act s σ with
    | .ok s' => (g.rawResume cfg, s')
    | .error e => ({ g with phase := .raised e }, s)
  | _ => (g, s)

/-- `n` steps, as `sysRun`. -/
def rawSysRun (cfg : RawCfg) (cand : S → Name → Subst → Res (List Int)) (act : S → Subst → Res S) : Nat → Gen → S → List Subst × Gen × S
  | 0, g, s => ([], g, s)
  | n + 1, g, s =>
    let (g', s') := rawStep cfg cand act g s
    let new := match g.phase with | .running => g'.phase.output | _ => []
    let (outs, r) := rawSysRun cfg cand act n g' s'
    (new ++ outs, r)

end

/-- The arguments `timeout` and `limit` of a call of `solve`, where they are given. -/
structure CallArgs where
  timeout : Option Setting := Option.none
  limit : Option Setting := Option.none

/-- `solver.solve(model, **args)` (solver.py:154-283), iterated for `n` steps; `a.solver` are the attributes of the solver. Nothing before the loop
depends on the two settings. -/
def callRun (a : SolveArgs) (args : CallArgs) (m : Model) (act : Heap → Subst → Res Heap) (n : Nat) (h : Heap) : List Subst × Gen × Heap :=
  let (h', info, g) := startSolve a m h
  rawSysRun ⟨.effective args.timeout a.solver.timeout, .effective args.limit a.solver.limit, a.clock⟩ (candidates info) act n g h'

/-- `Solver(timeout=…, limit=…)` (solver.py:41-55); the other settings as in `base`. -/
def Solver.make (base : Solver) (timeout limit : Setting) : Solver := { base with timeout := timeout.stored, limit := limit.stored }

end Satisfy
