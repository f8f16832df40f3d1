import Verif.Listing
/-!
# Domains as objects (model.py:77-90, solver.py:95-132, 243)

`add_int_variable` stores the object it is given (model.py:84-86) and does not copy it. In the other files a variable has a list of values; here it has the object: a list or a set that
the caller may change later, a tuple, a range, or an iterator that is used up by the first loop over it. User-defined iterables are left out.

`RWorld.world` still notes the values read at the declaration, because the other calls of the interface are taken over from `Model.lean`; they look at the names of the variables only. What the
solver reads is `live`.
-/

namespace Satisfy

/-- What may be given as domain. -/
inductive DomObj where
  | seq (d : PyDomain)
  | iter (rest : List Int)
  deriving DecidableEq

/-- The objects of the program. -/
abbrev Objs := Nat → DomObj

/-- What a loop over the object sees. -/
def DomObj.values : DomObj → List Int
  | .seq d => d.values
  | .iter vs => vs

/-- The loop of `add_int_variable` (model.py:78-82) over an iterator: what is left. -/
def leftOver (seen : List Int) : List Int → List Int
  | [] => []
  | v :: vs => if seen.contains v then vs else leftOver (v :: seen) vs

/-- The object after the loop of `add_int_variable` (model.py:78-82). -/
def DomObj.scanned : DomObj → DomObj
  | .seq d => .seq d
  | .iter vs => .iter (leftOver [] vs)

/-- What the program can make of an object: a list or a set can get any content, an iterator can be advanced, tuples and ranges stay what they are. -/
def DomObj.canBecome : DomObj → DomObj → Bool
  | .seq (.list _), .seq (.list _) => true
  | .seq (.set _), .seq (.set _) => true
  | .iter vs, .iter ws => ws.isSuffixOf vs
  | a, b => decide (a = b)

/-- The domain of a variable: an object of the program, or a tuple made by the library. -/
inductive DomVal where
  | ref (r : Nat)
  | tuple (vs : List Int)
  deriving DecidableEq

def DomVal.obj (o : Objs) : DomVal → DomObj
  | .ref r => o r
  | .tuple vs => .seq (.tuple vs)

/-- Model, constraint and parameter objects, the domains of the variables and the domain objects. -/
structure RWorld where
  world : World
  dom : Name → DomVal
  objs : Objs

/-- The model with the values its domains have now. -/
def RWorld.live (w : RWorld) : Model :=
  { w.world.model with vars := w.world.model.vars.map (fun p => (p.1, { p.2 with domain := p.2.domain.map (fun _ => ((w.dom p.1).obj w.objs).values) })) }

/-- What a program does: the calls of `Model.lean` (a domain given there is a tuple nobody else has), declaring a variable with an object, changing an object. -/
inductive RCall where
  | call (c : Call)
  | addInt (r : Nat) (name : Option Name)
  | change (r : Nat) (o : DomObj)

/-- Enter the domain of a new variable (model.py:84-86). -/
def RWorld.declare (w : RWorld) (v : DomVal) (values : List Int) (name : Option Name) : RWorld × Res Expr :=
  match addIntVariable values name w.world with
  | (w', .ok (.var x)) => ({ w with world := w', dom := fun y => if y = x then v else w.dom y }, .ok (.var x))
  | (w', r) => ({ w with world := w' }, r)

def RCall.run : RCall → RWorld → RWorld
  | .call (.addInt d n), w => (w.declare (.tuple d) d n).1
  | .call (.addBool n), w => (w.declare (.tuple [0, 1]) [0, 1] n).1
  | .call c, w => { w with world := (c.run w.world).1 }
  | .addInt r n, w =>
    -- model.py:79-82 loops over the object before anything else; the object itself is stored (model.py:84-86)
    ({ w with objs := fun i => if i = r then (w.objs r).scanned else w.objs i }.declare (.ref r) (w.objs r).values n).1
  | .change r o, w => if (w.objs r).canBecome o then { w with objs := fun i => if i = r then o else w.objs i } else w

def runR : List RCall → RWorld → RWorld
  | [], w => w
  | c :: cs, w => runR cs (c.run w)

/-! ## `solve` -/

/-- `ModelInfo` with domain objects. The field `vars` of `rest` is not used. -/
structure RInfo where
  vars : Dict DomVal
  rest : Info

/-- With the values the domains have now. -/
def RInfo.view (o : Objs) (ri : RInfo) : Info := { ri.rest with vars := ri.vars.map (fun p => (p.1, (p.2.obj o).values)) }

/-- The initial values in `_setup` (solver.py:96-102). -/
def RInfo.init (w : RWorld) : RInfo where
  vars := w.world.model.vars.filterMap (fun p => p.2.domain.map (fun _ => (p.1, w.dom p.1)))
  rest := .init w.live

/-- The domains after one pass of the loop of `_setup` (solver.py:128): a filtered domain is a new tuple, the others stay the objects they are. -/
def retuple (c : Constraint) (info : Info) (vars : Dict DomVal) : Dict DomVal :=
  match c.kind with
  | .allDiff _ => vars
  | _ => match c.vars with
    | [x] => match info.vars.get? x with
      | some d => vars.set x (.tuple d)
      | none => vars
    | _ => vars

/-- One pass of the loop of `_setup` (solver.py:105-132). -/
def rsetupOne (o : Objs) (comp : Bool) (c : Constraint) (h : Heap) (ri : RInfo) : Heap × Res RInfo :=
  match setupOne comp c h (ri.view o) with
  | (h', .error e) => (h', .error e)
  | (h', .ok info) => (h', .ok ⟨retuple c info ri.vars, info⟩)

/-- The loop of `_setup` (solver.py:104-132). -/
def rsetupLoop (o : Objs) (comp : Bool) : List Constraint → Heap → RInfo → Heap × Res RInfo
  | [], h, ri => (h, .ok ri)
  | c :: cs, h, ri => match rsetupOne o comp c h ri with
    | (h', .ok ri') => rsetupLoop o comp cs h' ri'
    | (h', .error e) => (h', .error e)

/-- Has every domain a length (solver.py:100)? Iterators have none. -/
def RInfo.sized (o : Objs) (ri : RInfo) : Bool :=
  ri.vars.all (fun p => match p.2.obj o with | .seq _ => true | .iter _ => false)

/-- `_setup` (solver.py:95-148). -/
def rsetup (comp : Bool) (w : RWorld) (adds : List Constraint) : Heap × Res RInfo :=
  if !(RInfo.init w).sized w.objs then (w.world.heap, .error .typeError)
  else match rsetupLoop w.objs comp (w.world.model.constraints ++ adds) w.world.heap (.init w) with
    | (h', .error e) => (h', .error e)
    | (h', .ok ri) => match checkGroups (ri.view w.objs).vars ri.rest.groups with
      | .error e => (h', .error e)
      | .ok () => (h', .ok ri)

/-- From the first `next()` up to the loop (solver.py:155-226). -/
def rstart (a : SolveArgs) (w : RWorld) : Heap × RInfo × Gen :=
  if !w.world.model.solvable then (w.world.heap, .init w, .idle .finished)
  else match rsetup a.solver.compile w a.adds with
    | (h', .error e) => (h', .init w, .idle (.raised e))
    | (h', .ok ri) =>
      match orderVars a.solver.policy a.shuffle w.live (ri.view w.objs) with
      | [] => (h', ri, .idle .finished)
      | x :: xs =>
        (h', ri, (Gen.idle .running).withTimer (Timer.new.doStart (a.clock 0))
          (fun g => { g with search := ⟨[(x :: xs, [])], []⟩ }))

/-- `n` steps of iterating `solver.solve(model, **args)`; the consumer may also change domain objects, and the search reads the domains as they are then (solver.py:243). -/
def rRun (a : SolveArgs) (w : RWorld) (act : Heap × Objs → Subst → Res (Heap × Objs)) (n : Nat) : List Subst × Gen × (Heap × Objs) :=
  let (h', ri, g) := rstart a w
  sysRun a.cfg (fun (s : Heap × Objs) => candidates (ri.view s.2) s.1) act n g (h', w.objs)

end Satisfy
