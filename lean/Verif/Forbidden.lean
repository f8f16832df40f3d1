import Verif.Solver
/-!
# solver.py: `Solver._solve_forbidden` (solver.py:285-400)

A second version of the search, which nothing calls. It keeps for every variable the values taken by its all-different neighbours, in
a dict `neighbour -> value`, instead of looking them up in the substitution. The names `limit` and `num_solutions`, which it uses after
the first `yield`, are not defined in it.
-/

namespace Satisfy

/-- The local variable `forbidden` (solver.py:334); every variable has an entry. -/
abbrev Forbidden := Name → Dict Int

/-- `for c_var in var_ad_constraints[var_name]: forbidden[c_var].pop(var_name, None)` (solver.py:353-354). -/
def Forbidden.pop (f : Forbidden) (x : Name) (ad : List Name) : Forbidden := fun c => if c ∈ ad then (f c).erase x else f c

/-- `for c_var in var_ad_constraints[var_name].intersection(unbound_vars): forbidden[c_var][var_name] = value` (solver.py:387-388). -/
def Forbidden.put (f : Forbidden) (x : Name) (v : Int) (ad rest : List Name) : Forbidden := fun c =>
  if c ∈ ad ∧ c ∈ rest then (f c).set x v else f c

/-- Is `var_name == value` acceptable (solver.py:362-370)? -/
def fAcceptable (h : Heap) (info : Info) (x : Name) (σ : Subst) (fset : List Int) (v : Int) : Res Bool :=
  if v ∈ fset then .ok false else noneUnsat h (σ.set x v) (info.cons x)

/-- The loop over the values (solver.py:360-370): `fset` are the values that are not tried. -/
def fCandLoop (h : Heap) (info : Info) (x : Name) (σ : Subst) (fset : List Int) : List Int → Res (List Int)
  | [] => .ok []
  | v :: vs => do
    let ok ← fAcceptable h info x σ fset v
    let rest ← fCandLoop h info x σ fset vs
    return if ok then v :: rest else rest

/-- The candidate values of `x` (solver.py:358-370). -/
def fCandidates (info : Info) (h : Heap) (f : Forbidden) (x : Name) (σ : Subst) : Res (List Int) :=
  match info.vars.get? x with
  | none => .error .keyError
  | some d => fCandLoop h info x σ ((f x).map (·.2)) d

/-- What one pass through the loop body does. -/
inductive FEv where
  | silent (s : Search) (f : Forbidden)
  | yield (σ : Subst) (s : Search) (f : Forbidden)
  | done
  | raised (e : Err)

/-- solver.py:383-394. -/
def fTake (s : Search) (f : Forbidden) (ad : List Name) (x : Name) (rest : List Name) (σ : Subst) (v : Int) (vs : List Int) : FEv :=
  let d := s.domains.set x vs
  let σ' := σ.set x v
  match rest with
  | [] => .yield σ' ⟨s.stack, d⟩ f
  | _ :: _ => .silent ⟨(rest, σ') :: s.stack, d⟩ (f.put x v ad rest)

/-- One pass through the loop body without the timeout check (solver.py:347-400). -/
def fStep (info : Info) (h : Heap) (s : Search) (f : Forbidden) : FEv :=
  match s.stack with
  | [] => .done
  | ([], _) :: _ => .raised .indexError
  | (x :: rest, σ) :: stack' =>
    let f := f.pop x (info.ad x)
    match s.domains.get? x with
    | none =>
      match fCandidates info h f x σ with
      | .error e => .raised e
      | .ok [] => .silent ⟨stack', s.domains⟩ f
      | .ok (v :: vs) => fTake s f (info.ad x) x rest σ v vs
    | some [] => .silent ⟨stack', s.domains.erase x⟩ f
    | some (v :: vs) => fTake s f (info.ad x) x rest σ v vs

/-- The generator object; `interrupt` is the attribute of the solver. -/
structure FGen where
  search : Search
  forb : Forbidden
  timer : Timer
  tick : Nat
  interrupt : Option Interrupt
  phase : Phase

/-- The timeout check at the head of the loop (solver.py:340-345). -/
def FGen.timedOut (cfg : RunCfg) (g : FGen) : Bool :=
  match cfg.timeout with
  | none => false
  | some t => decide (g.timer.elapsedAt (cfg.clock g.tick) > t)

/-- One pass through the `while` loop (solver.py:339-394). -/
def FGen.loop (cfg : RunCfg) (info : Info) (h : Heap) (g : FGen) : FGen :=
  if g.search.stack.isEmpty then { g with phase := .finished }
  else if g.timedOut cfg then
    match g.timer.abort (cfg.clock (g.tick + 1)) with
    | .ok t => { g with timer := t, tick := g.tick + 2, interrupt := some .timeout, phase := .finished }
    | .error e => { g with tick := g.tick + 2, phase := .raised e }
  else
    let g := if cfg.timeout.isSome then { g with tick := g.tick + 1 } else g
    match fStep info h g.search g.forb with
    | .done => { g with phase := .finished }
    | .raised e => { g with phase := .raised e }
    | .silent s f => { g with search := s, forb := f }
    | .yield σ s f => match g.timer.doStop (cfg.clock g.tick) with
      | .ok t => { g with search := s, forb := f, timer := t, tick := g.tick + 1, phase := .suspended σ }
      | .error e => { g with phase := .raised e }

/-- Resumption after the `yield` (solver.py:395): `limit` is not defined. -/
def FGen.resume (g : FGen) : FGen := { g with phase := .raised (.nameError "limit") }

/-- One step of the generator with a consumer that just asks for the next solution. -/
def FGen.step (cfg : RunCfg) (info : Info) (h : Heap) (g : FGen) : FGen :=
  match g.phase with
  | .running => g.loop cfg info h
  | .suspended _ => g.resume
  | _ => g

/-- `n` steps: everything handed out on the way, and the state reached. -/
def fRun (cfg : RunCfg) (info : Info) (h : Heap) : Nat → FGen → List Subst × FGen
  | 0, g => ([], g)
  | n + 1, g =>
    let g' := g.step cfg info h
    let new := match g.phase with | .running => g'.phase.output | _ => []
    let (outs, r) := fRun cfg info h n g'
    (new ++ outs, r)

/-- The order of the variables (solver.py:297-322): the last four policies are not looked at. -/
def fOrder (p : Policy) (shuffle : List Name → List Name) (m : Model) (info : Info) : List Name :=
  match p with
  | .groups => orderVars .groups shuffle m info
  | .random => orderVars .random shuffle m info
  | .reversed => orderVars .reversed shuffle m info
  | _ => info.vars.keys

/-- From the first `next()` up to the loop (solver.py:286-338); `i` is what `_interrupt` is before (it is not reset). Neither
`model.solvable()` nor the number of variables is looked at. -/
def startForbidden (a : SolveArgs) (m : Model) (i : Option Interrupt) (h : Heap) : Heap × Info × FGen :=
  let idle (ph : Phase) : FGen := ⟨⟨[], []⟩, fun _ => [], .new, 0, i, ph⟩
  match setup a.solver.compile m a.adds h with
  | (h', .error e) => (h', .init m, idle (.raised e))
  | (h', .ok info) =>
    match Timer.new.doStart (a.clock 0) with
    | .error e => (h', info, idle (.raised e))
    | .ok t => (h', info, ⟨⟨[(fOrder a.solver.policy a.shuffle m info, [])], []⟩, fun _ => [], t, 1, i, .running⟩)

/-- `n` steps of iterating `solver._solve_forbidden(model, **args)`. -/
def forbiddenRun (a : SolveArgs) (m : Model) (i : Option Interrupt) (n : Nat) (h : Heap) : List Subst × FGen × Heap :=
  let (h', info, g) := startForbidden a m i h
  let (outs, g') := fRun a.cfg info h' n g
  (outs, g', h')

end Satisfy
