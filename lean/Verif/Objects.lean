import Verif.Optimize
/-!
# Substitutions as objects (solver.py:222, 234-283)

In the other files a substitution is a value. Here it is what it is in Python: a dict object. The search keeps references to dicts on its stack, copies them, writes into the copies and hands
one of them out; the caller may change every dict it has been given, at any time. What is shown in `Props/Objects.lean` is that this makes no difference, so that the machine of
`Search.lean` may work with values.

The lists in `domains` (solver.py:221, 241) are made by the search and never leave it; they stay values. Constraints get the dict as an argument and read it only (constraint.py:23-27, 47-48, 76-80, 90-91, expression.py:751-755).
-/

namespace Satisfy

/-- The dict objects of the program: their contents, and the number of the next one. -/
structure Dicts where
  cell : Nat → Subst
  next : Nat

/-- A new dict with this content. -/
def Dicts.make (d : Dicts) (σ : Subst) : Dicts := ⟨fun i => if i = d.next then σ else d.cell i, d.next + 1⟩

/-- Give a dict a new content. -/
def Dicts.write (d : Dicts) (r : Nat) (σ : Subst) : Dicts := { d with cell := fun i => if i = r then σ else d.cell i }

/-- `substitution.copy()` (solver.py:238); the copy has the number `d.next`. -/
def Dicts.copy (d : Dicts) (r : Nat) : Dicts := d.make (d.cell r)

/-- `substitution[var_name] = value` (solver.py:244, 269). -/
def Dicts.setItem (d : Dicts) (r : Nat) (x : Name) (v : Int) : Dicts := d.write r ((d.cell r).set x v)

/-- The two inner loops (solver.py:245-255): `substitution` has its new item already. -/
def acceptableNow (h : Heap) (info : Info) (x : Name) (σ : Subst) (v : Int) : Res Bool :=
  if (info.ad x).any (fun y => σ.get? y = some v) then .ok false
  else noneUnsat h σ (info.cons x)

/-- The loop over the values (solver.py:243-258); every value is written into the dict. -/
def oCandLoop (h : Heap) (info : Info) (x : Name) (r : Nat) : List Int → Dicts → Dicts × Res (List Int)
  | [], d => (d, .ok [])
  | v :: vs, d =>
    let d := d.setItem r x v
    match acceptableNow h info x (d.cell r) v with
    | .error e => (d, .error e)
    | .ok ok => match oCandLoop h info x r vs d with
      | (d, .error e) => (d, .error e)
      | (d, .ok rest) => (d, .ok (if ok then v :: rest else rest))

/-- The candidate values of `x` (solver.py:241-258). -/
def oCandidates (info : Info) (h : Heap) (x : Name) (r : Nat) (d : Dicts) : Dicts × Res (List Int) :=
  match info.vars.get? x with
  | none => (d, .error .keyError)
  | some dom => oCandLoop h info x r dom d

/-- `stack` and `domains` (solver.py:220-222). -/
structure OSearch where
  stack : List (List Name × Nat)
  domains : Dict (List Int)

/-- What one pass does. -/
inductive OEv where
  | silent (s : OSearch)
  | yield (r : Nat) (s : OSearch)
  | done
  | raised (e : Err)

/-- solver.py:268-283, `r` being the number of the copy. -/
def OSearch.take (s : OSearch) (x : Name) (rest : List Name) (r : Nat) (v : Int) (vs : List Int) (d : Dicts) : Dicts × OEv :=
  let doms := s.domains.set x vs
  let d := d.setItem r x v
  match rest with
  | [] => (d, .yield r ⟨s.stack, doms⟩)
  | _ :: _ => (d, .silent ⟨(rest, r) :: s.stack, doms⟩)

/-- One pass through the loop body (solver.py:234-283). -/
def OSearch.step (info : Info) (h : Heap) (s : OSearch) (d : Dicts) : Dicts × OEv :=
  match s.stack with
  | [] => (d, .done)
  | ([], _) :: _ => (d, .raised .indexError)
  | (x :: rest, r) :: stack' =>
    let r' := d.next
    let d := d.copy r
    match s.domains.get? x with
    | none =>
      match oCandidates info h x r' d with
      | (d, .error e) => (d, .raised e)
      | (d, .ok []) => (d, .silent ⟨stack', s.domains⟩)
      | (d, .ok (v :: vs)) => s.take x rest r' v vs d
    | some [] => (d, .silent ⟨stack', s.domains.erase x⟩)
    | some (v :: vs) => s.take x rest r' v vs d

/-- State of the generator; `suspended` at the `yield` of this dict. -/
inductive OPhase where
  | running
  | suspended (r : Nat)
  | finished
  | raised (e : Err)

/-- The generator object, as `Gen`. -/
structure OGen where
  search : OSearch
  timer : Timer
  tick : Nat
  num : Nat
  interrupt : Option Interrupt
  phase : OPhase

/-- As `Gen.withTimer`. -/
def OGen.withTimer (g : OGen) (r : Res Timer) (k : OGen → OGen) : OGen :=
  match r with
  | .ok t => k { g with timer := t, tick := g.tick + 1 }
  | .error e => { g with phase := .raised e }

/-- The timeout check (solver.py:228-232). -/
def OGen.timedOut (cfg : RunCfg) (g : OGen) : Bool :=
  match cfg.timeout with
  | none => false
  | some t => decide (g.timer.elapsedAt (cfg.clock g.tick) > t)

/-- One pass through the `while` loop (solver.py:227-277). -/
def OGen.loop (cfg : RunCfg) (info : Info) (h : Heap) (g : OGen) (d : Dicts) : Dicts × OGen :=
  if g.search.stack.isEmpty then (d, { g with phase := .finished })
  else if g.timedOut cfg then (d, { g with interrupt := some .timeout, phase := .finished, tick := g.tick + 1 })
  else
    let g := if cfg.timeout.isSome then { g with tick := g.tick + 1 } else g
    match g.search.step info h d with
    | (d, .done) => (d, { g with phase := .finished })
    | (d, .raised e) => (d, { g with phase := .raised e })
    | (d, .silent s) => (d, { g with search := s })
    | (d, .yield r s) => (d, g.withTimer (g.timer.doStop (cfg.clock g.tick))
        (fun g => { g with search := s, num := g.num + 1, phase := .suspended r }))

/-- Resumption (solver.py:278-282). -/
def OGen.resume (cfg : RunCfg) (g : OGen) : OGen :=
  let reached : Bool := match cfg.limit with
    | none => false
    | some l => decide ((g.num : Int) ≥ l)
  if reached then
    g.withTimer (g.timer.abort (cfg.clock g.tick))
      (fun g' => { g' with tick := g.tick, interrupt := some .limit, phase := .finished })
  else
    g.withTimer (g.timer.doStart (cfg.clock g.tick)) (fun g => { g with phase := .running })

/-- What the caller may do with dicts: give the `i`-th dict it has any content, or make a new one. -/
inductive Edit where
  | change (i : Nat) (σ : Subst)
  | make (σ : Subst)

/-- The generator, the dict objects, and the dicts the caller has: those it was handed, in this order, and those it has made. -/
structure OSys where
  gen : OGen
  dicts : Dicts
  given : List Nat

def Edit.apply (s : OSys) : Edit → OSys
  | .change i σ => match s.given[i]? with
    | some r => { s with dicts := s.dicts.write r σ }
    | none => s
  | .make σ => { s with dicts := s.dicts.make σ, given := s.given ++ [s.dicts.next] }

def OSys.edit (s : OSys) (es : List Edit) : OSys := es.foldl Edit.apply s

/-- One step of the generator with its consumer, as `sysStep`. The consumer runs `act` on the solution, and then the caller does what it likes with its dicts. (In `optimize`, `act`
evaluates the objectives before the solution is handed on, solver.py:413-421.) Also while the search is running, in another thread, say, the caller may change its dicts. -/
def oStep (cfg : RunCfg) (info : Info) (act : Heap → Subst → Res Heap) (es : List Edit) (s : OSys) (h : Heap) : OSys × Heap :=
  match s.gen.phase with
  | .running =>
    let s := s.edit es
    let (d, g) := s.gen.loop cfg info h s.dicts
    (⟨g, d, match g.phase with | .suspended r => s.given ++ [r] | _ => s.given⟩, h)
  | .suspended r => match act h (s.dicts.cell r) with
    | .ok h' =>
      let s := s.edit es
      ({ s with gen := s.gen.resume cfg }, h')
    | .error e =>
      let s := s.edit es
      ({ s with gen := { s.gen with phase := .raised e } }, h)
  | _ => (s.edit es, h)

/-- The content of the dict handed out by reaching this state. -/
def OSys.output (s : OSys) : List Subst :=
  match s.gen.phase with
  | .suspended r => [s.dicts.cell r]
  | _ => []

/-- `n` steps; `es k` is what the caller does in step `k`. The solutions are listed with their content at the time they are handed out. -/
def oRun (cfg : RunCfg) (info : Info) (act : Heap → Subst → Res Heap) : Nat → (Nat → List Edit) → OSys → Heap → List Subst × OSys × Heap
  | 0, _, s, h => ([], s, h)
  | n + 1, es, s, h =>
    let (s', h') := oStep cfg info act (es 0) s h
    let new := match s.gen.phase with | .running => s'.output | _ => []
    let (outs, r) := oRun cfg info act n (fun k => es (k + 1)) s' h'
    (new ++ outs, r)

/-- The generator before its first step, with nothing to do. -/
def OGen.idle (ph : OPhase) : OGen := ⟨⟨[], []⟩, .new, 0, 0, none, ph⟩

/-- From the first `next()` up to the loop (solver.py:155-226); the first dict is the `{}` in line 222. The caller has the dicts `given`. -/
def oStart (a : SolveArgs) (m : Model) (h : Heap) (d : Dicts) (given : List Nat) : Heap × Info × OSys :=
  if !m.solvable then (h, .init m, ⟨.idle .finished, d, given⟩)
  else match setup a.solver.compile m a.adds h with
    | (h', .error e) => (h', .init m, ⟨.idle (.raised e), d, given⟩)
    | (h', .ok info) =>
      match orderVars a.solver.policy a.shuffle m info with
      | [] => (h', info, ⟨.idle .finished, d, given⟩)
      | x :: xs =>
        (h', info, ⟨(OGen.idle .running).withTimer (Timer.new.doStart (a.clock 0))
          (fun g => { g with search := ⟨[(x :: xs, d.next)], []⟩ }), d.make [], given⟩)

/-- `n` steps of iterating `solver.solve(model, **args)`. -/
def oSolveRun (a : SolveArgs) (m : Model) (act : Heap → Subst → Res Heap) (es : Nat → List Edit) (d : Dicts) (given : List Nat) (n : Nat) (h : Heap) :
    List Subst × OSys × Heap :=
  let (h', info, s) := oStart a m h d given
  oRun a.cfg info act n es s h'

/-- `n` steps of iterating `solver.optimize(model, objectives, **args)` (solver.py:402-421), as `optimizeRun`. -/
def oOptimizeRun (a : SolveArgs) (os : List Objective) (es : Nat → List Edit) (d : Dicts) (given : List Nat) (n : Nat) (w : World) :
    List Subst × OSys × World :=
  match makeConstraints os w with
  | (w', .error e) => ([], ⟨.idle (.raised e), d, given⟩, w')
  | (w', .ok ks) =>
    let r := oSolveRun (a.withObjectives ks) w'.model (onSolution ks) es d given n w'.heap
    (r.1, r.2.1, { w' with heap := r.2.2 })

end Satisfy
