"""Edits of the model as realistic bugs would make them: (id, file, definition, old text, new text, what the edit is, claim it breaks)."""
_M = [
# --- Py
('py01', 'Py.lean', 'pyFloorDiv', 'else .ok (a.fdiv b)', 'else .ok (a.tdiv b)', 'division truncates towards zero instead of rounding down', 'C01: a/b evaluates to x//y'),
('py02', 'Py.lean', 'pyMod', 'else .ok (a.fmod b)', 'else .ok (a.tmod b)', 'remainder takes the sign of the dividend', 'C01: a%b evaluates to x%y'),
('py03', 'Py.lean', 'pyAnd', 'if truthy a then b else a', 'ofBool (truthy a && truthy b)', '& yields a bool instead of an operand', "C01: a&b evaluates to 'x and y'"),
('py04', 'Py.lean', 'pyOr', 'if truthy a then a else b', 'if truthy b then b else a', 'operands of or exchanged', "C01: a|b evaluates to 'x or y'"),
('py05', 'Py.lean', 'pySorted', '| x :: xs => insertSorted lt x (pySorted lt xs)', '| x :: xs => if xs.any (fun y => !lt x y && !lt y x) then pySorted lt xs else insertSorted lt x (pySorted lt xs)', 'sorting drops elements with equal keys', 'C14, C15: solutions bind all variables'),
('py06', 'Py.lean', 'Dict.erase', "if k' = k then d else (k', v') :: erase d k", "d", 'erase removes the first entry whatever its key', 'C15: no solution is missed'),
# --- Expr
('ex01', 'Expr.lean', 'BOp.op', '| .sub, a, b => .ok (a - b)', '| .sub, a, b => .ok (b - a)', 'operands of subtraction exchanged', 'C01'),
('ex02', 'Expr.lean', 'BOp.op', '| .le, a, b => .ok (ofBool (decide (a ≤ b)))', '| .le, a, b => .ok (ofBool (decide (a < b)))', '<= evaluates as <', 'C01'),
('ex03', 'Expr.lean', 'AccKind.absorbing', '| .prod => some 0', '| .prod => some 1', 'wrong absorbing element of a product', 'C01: a*b'),
('ex04', 'Expr.lean', 'accInit', '(if c\' ≠ k.neutral then k.op c c\' else c) (elist ++ es\')', 'c (elist ++ es\')', 'flattening a nested Sum/Prod forgets its constant', 'C01: a+b, a*b'),
('ex05', 'Expr.lean', 'accLoop', "else accLoop k es c (elist ++ es')", "else accLoop k es c (es')", 'flattening a nested accumulation drops the elements before it', 'C01'),
('ex06', 'Expr.lean', 'expandOperand', '[l, r] else [.bin op l r]', '[l] else [.bin op l r]', 'flattening a binary + drops the right operand', 'C01'),
('ex07', 'Expr.lean', 'Expr.pySub', '| s, .expr (.const w) => if w = 0 then s else .bin .sub s (.const w)', '| s, .expr (.const w) => if w = 0 then .const 0 else .bin .sub s (.const w)', 'e - 0 folds to 0', 'C01: a-b'),
('ex08', 'Expr.lean', 'Expr.pySub', 'if v = 0 then .un .neg (coerce o)', 'if v = 0 then coerce o', '0 - e folds to e', 'C01: a-b'),
('ex09', 'Expr.lean', 'Expr.pyPow', 'if w = 0 then .ok (.const 1)', 'if w = 0 then .ok (.const 0)', 'e ** 0 folds to 0', 'C01: a**b'),
('ex10', 'Expr.lean', 'Expr.pyPow', 'if v = 1 then .ok (.const v)', 'if v = 0 then .ok (.const v)', '0 ** e folds to 0 (wrong for e = 0)', 'C01: a**b'),
('ex11', 'Expr.lean', 'Cmp.swap', '| .lt => .gt | .le => .ge', '| .lt => .ge | .le => .gt', 'reflected comparison negated instead of mirrored', 'C01: n < e'),
('ex12', 'Expr.lean', 'Obj.cmp', '| .int a, .expr e => e.pyCmp c.swap (.int a)', '| .int a, .expr e => e.pyCmp c (.int a)', 'n < e builds e < n', 'C01'),
('ex13', 'Expr.lean', 'Obj.and', '| .int a, .expr e => .expr (.bin .and (coerce (.int a)) e)', '| .int a, .expr e => .expr (.bin .and e (coerce (.int a)))', 'n & e builds e & n', "C01: value of 'x and y'"),
('ex14', 'Expr.lean', 'Expr.pyDiv', "if v = 0 then .ok (.const v)\n      else match o with\n        | .expr (.const w) => do return .const (← pyFloorDiv v w)", "match o with\n        | .expr (.const w) => do return .const (← pyFloorDiv w v)", 'constant folding of a quotient exchanges the operands', 'C01: a/b'),
('ex15', 'Expr.lean', 'Expr.vars', '| .bin _ l r => dedupInto (dedupInto [] l.vars) r.vars', '| .bin _ l r => dedupInto [] l.vars', 'vars() of a binary operator omits the right operand', 'C03'),
('ex16', 'Expr.lean', 'Expr.vars', '| .bin _ l r => dedupInto (dedupInto [] l.vars) r.vars', '| .bin _ l r => l.vars ++ r.vars', 'vars() lists shared variables twice', 'C03'),
('ex17', 'Expr.lean', 'Expr.vars', '| .param _ _ => []\n  | .un _ e => dedupInto', '| .param _ x => [x]\n  | .un _ e => dedupInto', 'a parameter counts as a variable', 'C03: vars() are the variables'),
('ex18', 'Expr.lean', 'Expr.eval', '| .param i _ => .ok (ρ i)', '| .param i x => .ok ((σ.get? x).getD (ρ i))', 'a substitution entry overrides a parameter', 'C04'),
('ex19', 'Expr.lean', 'UOp.op', '| .not, a => ofBool (!truthy a)', '| .not, a => -a - 1', 'Not is bitwise complement', 'C05 (meaning of compiled Not equals evaluate); no operator builds Not'),
('ex20', 'Expr.lean', 'Expr.equals', '| .const v, .const w => v == w', '| .const _, .const _ => true', 'equals() on constants ignores the value', 'C08'),
('ex21', 'Expr.lean', 'Expr.pyMul', 'if w = 0 then .const w else if w = 1 then s', 'if w = 0 then s else if w = 1 then s', 'e * 0 folds to e', 'C01: a*b'),
('ex22', 'Expr.lean', 'Expr.freeVars', '| .var x => .ok (if σ.has x then [] else [x])', '| .var x => .ok (if σ.has x then [x] else [])', 'free_vars() of a variable inverted', 'C03'),
('ex23', 'Expr.lean', 'makeAcc', '| [e] => if c = k.neutral then e else', '| [e] => if c ≠ k.neutral then e else', 'a sum with one term and a constant drops the constant', 'C01'),
# --- Compile
('co01', 'Compile.lean', 'BOp.pySym', '| .div => .dslash', '| .div => .slash', 'compiled division is /', 'C06'),
('co02', 'Compile.lean', 'Expr.pyToks', '| .bin o l r => .lpar :: l.pyToks ρ ++ .op o.pySym :: r.pyToks ρ ++ [.rpar]', '| .bin o l r => l.pyToks ρ ++ .op o.pySym :: r.pyToks ρ', 'no brackets around binary operators in compiled text', 'C06'),
('co03', 'Compile.lean', 'accToks', '(if c ≠ k.neutral then [intToks c] else []) ++ vs', '([] : List (List Tok)) ++ vs', 'the constant of a Sum/Prod is not printed', 'C06'),
('co04', 'Compile.lean', 'callSeq', '.ok (vs.foldl (· * ·) 1)', '.ok (vs.foldl (· * ·) 0)', 'prod([...]) starts from 0', 'C06'),
('co05', 'Compile.lean', 'Expr.pyToks', '| .param i _ => intToks (ρ i)', '| .param _ n => [.name n]', 'a parameter is printed by name in compiled text', 'C06'),
('co06', 'Compile.lean', 'intToks', 'if n < 0 then [.op .minus, .num n.natAbs] else', 'if False then [.op .minus, .num n.natAbs] else', 'the sign of constants is lost in compiled text', 'C06'),
('co07', 'Compile.lean', 'asFunction', '| some a => .fn e.vars a', '| some a => .fn e.vars.tail a', 'the first variable is missing in the lambda parameters', 'C06'),
('co08', 'Compile.lean', 'Expr.pyToks', '| .un .not e => .op .not :: e.pyToks ρ', '| .un .not e => e.pyToks ρ', 'Not is not printed in compiled text', 'C05'),
('co09', 'Compile.lean', 'Ast.eval', 'if truthy x then b.eval env else return x\n  | .or', 'let y ← b.eval env\n    return ofBool (truthy x && truthy y)\n  | .or', 'compiled & yields a bool', 'C06'),
# --- Constraint
('cn01', 'Constraint.lean', 'Constraint.evaluate', '(dedup vs).length = (dedup names).length', '(dedup vs).length = names.length', 'naming a variable twice makes all-different false', 'C10'),
('cn02', 'Constraint.lean', 'Constraint.evaluate', '(dedup vs).length = (dedup names).length', '(dedup vs).length + 1 ≥ (dedup names).length', 'all-different tolerates one pair of equal values', 'C10, C14'),
('cn03', 'Constraint.lean', 'Constraint.unsatisfied', 'if c.vars.any (fun x => !σ.has x) then .ok false', 'if c.vars.all (fun x => !σ.has x) then .ok false', 'constraints are evaluated while variables are unbound', 'C09, C15'),
('cn04', 'Constraint.lean', 'Constraint.unsatisfied', 'else do return !truthy (← c.evaluate h σ)', 'else do return truthy (← c.evaluate h σ)', 'verdict inverted', 'C09, C14'),
('cn05', 'Constraint.lean', 'Constraint.compile', 'if i = c.id then some (asFunction h.params e) else h.fns i', 'some (asFunction h.params e)', 'compiling one constraint overwrites the functions of all', 'C14, C25'),
('cn06', 'Constraint.lean', 'Constraint.compile', '| .expr e => { h with fns', '| .expr e => if c.isCompiled h then h else { h with fns', 'a compiled constraint is never compiled again (stale parameter values)', 'C26, C30'),
('cn07', 'Constraint.lean', 'lookupAll', '| none => .error .keyError\n    | some v', '| none => lookupAll σ xs\n    | some v', 'all-different skips missing variables', 'C10'),
('cn08', 'Constraint.lean', 'Heap.newConstraint', 'ncons := h.ncons + 1', 'ncons := h.ncons', 'two constraint objects share one identity', 'C35, C36 (models whose constraints share a compiled function)'),
('cn09', 'Constraint.lean', 'Heap.setParam', 'if j = i then v else h.params j', 'if j ≤ i then v else h.params j', 'assigning a parameter changes others', 'C26, C30'),
# --- Model
('mo01', 'Model.lean', 'getName', 'else if m.vars.has name then Api.raise .valueError\n    else return name', 'else return name', 'duplicate names are accepted', 'C11'),
('mo02', 'Model.lean', 'addIntVariable', 'if hasDup domain then Api.raise .valueError\n  else do', 'do', 'duplicate domain values are accepted', 'C11'),
('mo03', 'Model.lean', 'addConstraint', 'if varNames.any (fun x => !m.vars.has x) then Api.raise .valueError', 'if varNames.all (fun x => !m.vars.has x) then Api.raise .valueError', 'constraints over undefined variables are accepted if one is defined', 'C12'),
('mo04', 'Model.lean', 'addConstraint', 'if truthy value then return ()', 'if !truthy value then return ()', 'true variable-free constraints make the model unsolvable', 'C12'),
('mo05', 'Model.lean', 'addConstraint', '      Api.setModel { m with solvable := false }\n      finish', '      finish', 'false variable-free constraints are not noticed', 'C12'),
('mo06', 'Model.lean', 'addConstraint', 'm.constraints ++ [c]', '[c]', 'a new constraint replaces the old ones', 'C11/C12, C35..C38'),
('mo07', 'Model.lean', 'addParameter', 'vars := w.model.vars.set name ⟨none, some i⟩', 'vars := w.model.vars', 'parameters are not registered by name', 'C11 (names unique), C31'),
('mo08', 'Model.lean', 'checkName', 'c.isAlpha && cs.all isWord', 'cs.all isWord', 'names may begin with a digit', 'C11 (accepted names)'),
('mo09', 'Model.lean', 'addBoolVariable', 'addIntVariable [0, 1] name', 'addIntVariable [1] name', 'bool variables cannot be 0', 'C11'),
('mo10', 'Model.lean', 'hasDup', 'vs.contains v || hasDup vs', 'vs.contains v', 'only the first domain value is checked for repetition', 'C11'),
('mo11', 'Model.lean', 'setSolvable', 'def setSolvable (_solvable : Bool) : Api Unit := return ()', 'def setSolvable (solvable : Bool) : Api Unit := do\n  let m ← Api.model\n  Api.setModel { m with solvable := solvable }', 'set_solvable works (fixes the code)', 'refutation of C13; C12 (never becomes True again)'),
('mo12', 'Model.lean', 'getName', '| none => return pre ++ toString m.vars.length', '| none => return pre ++ "0"', 'all generated names are equal', 'C11'),
# --- Timer, Search
('ti01', 'Timer.lean', 'Timer.doStop', 't.elapsed + (now - s), none', 'now - s, none', 'stop() forgets earlier segments', 'C22'),
('ti02', 'Timer.lean', 'Timer.doStop', 'none, t.count + count⟩', 'some s, t.count + count⟩', 'stop() leaves the timer running', 'C22'),
('ti03', 'Timer.lean', 'Timer.doStart', 'if t.running then .error .runtimeError else .ok { t with start := some now }', 'if t.running then .error .runtimeError else .ok { t with start := some now, elapsed := 0 }', 'start() resets the elapsed time', 'C22'),
('ti04', 'Timer.lean', 'Timer.elapsedAt', '| some s => t.elapsed + (now - s)', '| some s => t.elapsed + (now - s) + 1', 'elapsed() too large by one', 'C21'),
('se01', 'Search.lean', 'Search.step', '| some [] => .silent ⟨stack\', s.domains.erase x⟩', '| some [] => .silent ⟨stack\', s.domains⟩', 'exhausted domains are not removed on backtracking', 'C15'),
('se02', 'Search.lean', 'Search.take', '| _ :: _ => .silent ⟨(rest, σ\') :: s.stack, d⟩', '| _ :: _ => .silent ⟨(rest, σ\') :: s.stack.tail, d⟩', 'the choice point is popped when going deeper', 'C15'),
('se03', 'Search.lean', 'Search.take', 'let σ\' := σ.set x v', 'let σ\' := if rest = [] then σ else σ.set x v', 'the last variable is not bound in the solution', 'C14'),
('se04', 'Search.lean', 'Search.take', 'let d := s.domains.set x vs', 'let d := s.domains.set x (v :: vs)', 'the value is not removed from the domain', 'C16, C17'),
('se05', 'Search.lean', 'Gen.resume', 'decide ((g.num : Int) ≥ l)', 'decide ((g.num : Int) > l)', 'limit off by one', 'C20'),
('se06', 'Search.lean', 'Gen.resume', 'interrupt := some .limit, phase', 'interrupt := none, phase', 'limit is not reported', 'C20, C29'),
('se07', 'Search.lean', 'Gen.loop', 'interrupt := some .timeout, phase', 'interrupt := none, phase', 'timeout is not reported', 'C21, C15, C30'),
('se08', 'Search.lean', 'Gen.timedOut', '> t)', '> t - 1)', 'timeout one unit early', 'C21'),
('se09', 'Search.lean', 'Gen.loop', 'num := g.num + 1', 'num := g.num', 'solutions are not counted', 'C20'),
('se10', 'Search.lean', 'Gen.resume', 'g.withTimer (g.timer.doStart (cfg.clock g.tick)) (fun g => { g with phase := .running })', '{ g with phase := .running }', 'the timer is not restarted after a solution', 'C22 (protocol: not started), C20'),
('se11', 'Search.lean', 'Search.step', '| .ok [] => .silent ⟨stack\', s.domains⟩', '| .ok [] => .done', 'a dead end stops the search', 'C15'),
('se12', 'Search.lean', 'Gen.timedOut', '| none => false\n  | some t => decide (g.timer.elapsedAt (cfg.clock g.tick) > t)', '| none => false\n  | some _ => false', 'the timeout is never checked', 'C52'),
# --- Solver
('so01', 'Solver.lean', 'setupOne', '| _ => (h, .ok { info with cons := fun x => if x ∈ vs then info.cons x ++ [c] else info.cons x })', '| _ => (h, .ok { info with cons := fun x => if some x = vs.head? then info.cons x ++ [c] else info.cons x })', 'constraints are attached to the first variable only', 'C14'),
('so02', 'Solver.lean', 'setupOne', '.ok { info with vars := info.vars.set x d\' }', '.ok info', 'single-variable constraints are dropped', 'C14'),
('so03', 'Solver.lean', 'filterDomain', 'return if truthy r then v :: rest else rest', 'return if truthy r then rest else v :: rest', 'domain filter inverted', 'C14'),
('so04', 'Solver.lean', 'setupOne', 'if vs.length > 1 ∧ x ∈ vs then', 'if vs.length > 2 ∧ x ∈ vs then', 'all-different over two variables is ignored', 'C14'),
('so05', 'Solver.lean', 'acceptable', 'if (info.ad x).any (fun y => σ\'.get? y = some v) then .ok false', 'if (info.ad x).all (fun y => σ\'.get? y = some v) then .ok false', 'all-different rejects only if all others are equal', 'C14'),
('so06', 'Solver.lean', 'acceptable', 'noneUnsat h σ\' (info.cons x)', 'noneUnsat h σ (info.cons x)', 'constraints are checked without the new value', 'C14'),
('so07', 'Solver.lean', 'noneUnsat', 'if ← c.unsatisfied h σ then return false\n    else noneUnsat h σ cs', 'if ← c.unsatisfied h σ then return false\n    else return true', 'only the first constraint of a variable is checked', 'C14'),
('so08', 'Solver.lean', 'candLoop', 'return if ok then v :: rest else rest', 'return if ok then [v] else rest', 'only the first acceptable value is tried', 'C15'),
('so09', 'Solver.lean', 'orderVars', '| .reversed => names.reverse', '| .reversed => names', 'REVERSED does not reverse', 'C45'),
('so10', 'Solver.lean', 'orderVars', '| .ordered => names\n', '| .ordered => names.reverse\n', 'ORDERED binds in reverse order', 'C19'),
('so11', 'Solver.lean', 'orderVars', '| .minBound => pySorted (fun x y => decide (m.domSize x < m.domSize y)) names', '| .minBound => pySorted (fun x y => decide (m.domSize y < m.domSize x)) names', 'MIN_BOUND takes the largest domain first', 'C45'),
('so12', 'Solver.lean', 'setup', 'm.constraints ++ adds', 'm.constraints', 'additional constraints are ignored', 'C24, C30'),
('so13', 'Solver.lean', 'startSolve', 'if !m.solvable then (h, .init m, .idle .finished)\n  else match', 'match', 'unsolvable models are searched', 'C14 / C15_unsolvable'),
('so14', 'Solver.lean', 'setupOne', 'let h := if comp then c.compile h else h', 'let h := c.compile h', 'constraints are compiled also if not asked for', 'C31'),
('so15', 'Solver.lean', 'Info.init', 'vars := m.pureVars', 'vars := m.pureVars.dropLast', 'the last variable is left out', 'C14'),
('so16', 'Solver.lean', 'Model.pureVars', 'm.vars.filterMap (fun p => p.2.domain.map (fun d => (p.1, d)))', 'm.vars.filterMap (fun p => some (p.1, p.2.domain.getD [0]))', 'parameters are searched like variables', 'C14: solutions bind exactly the variables'),
('so17', 'Solver.lean', 'orderVars', '(pySorted (fun x y => groupsLt info y x) names).reverse', 'pySorted (fun x y => groupsLt info y x) names', 'GROUPS order reversed', 'C45'),
('so18', 'Solver.lean', 'setupOne', 'info.ad x ++ vs.filter (· ≠ x)', 'info.ad x ++ vs', 'all-different compares a variable with itself', 'C15'),
('so19', 'Solver.lean', 'filterDomain', 'let r ← c.evaluate h [(x, v)]', 'let r ← c.evaluate { h with fns := fun _ => none } [(x, v)]', 'single-variable constraints are evaluated without compilation', 'C25/C23? (heap-relative evaluation)'),
# --- Optimize
('op01', 'Optimize.lean', 'Objective.cmp', 'if o.maximize then .gt else .lt', 'if o.maximize then .ge else .le', 'bounds are not strict', 'none: weaker bounds only repeat values; C30 and C53 stay true'),
('op02', 'Optimize.lean', 'Objective.cmp', 'if o.maximize then .gt else .lt', 'if o.maximize then .lt else .gt', 'Minimize and Maximize exchanged', 'C30'),
('op03', 'Optimize.lean', 'ObjCon.setBound', 'let h := h.assign k.notSet 0\n', '', 'the bound is never switched on', 'C30'),
('op04', 'Optimize.lean', 'ObjCon.setBound', 'if k.con.isCompiled h then k.con.compile h else h', 'h', 'the bound constraint is not recompiled', 'C30'),
('op05', 'Optimize.lean', 'makeConstraint', 'let notSet ← addParameter 1 none', 'let notSet ← addParameter 0 none', 'the bound 0 is on from the start', 'C29'),
('op06', 'Optimize.lean', 'onSolution', 'do onSolution ks (← k.addSolution h σ) σ', 'do let h ← k.addSolution h σ; let _ := ks; return h', 'only the first objective is tightened', 'C53 (progress in every objective)'),
('op07', 'Optimize.lean', 'optimalSolution', 'r.1 ≠ [] ∧ r.2.1.interrupt = none', 'r.1 ≠ []', 'is_optimal also after an interruption', 'C29, C30'),
('op08', 'Optimize.lean', 'optimalSolution', 'r.1.getLast?⟩', 'r.1.head?⟩', 'the first solution is returned instead of the last', 'C30'),
('op09', 'Optimize.lean', 'SolveArgs.withObjectives', 'a.adds ++ ks.map (·.con)', 'ks.map (·.con)', 'additional constraints are dropped by optimize', 'C28 with additional constraints'),
('op10', 'Optimize.lean', 'boundExpr', 'Obj.or (.expr notSet)', 'Obj.and (.expr notSet)', 'bound combined with & instead of |', 'C29'),
# --- Build / puzzles
('bu01', 'Build.lean', 'pyRange', '(b - a).toNat', '(b - a + 1).toNat', 'range includes its end', 'C36, C41, C43'),
('gr01', 'Graph.lean', 'graphEdge', 'addConstraint (cmpArg .ne (.expr x) (.expr y))', 'addConstraint (cmpArg .lt (.expr x) (.expr y))', 'edges require increasing labels', 'C37'),
('gr02', 'Graph.lean', 'graphDecode', 'return (p.1, ← labelAt labels i)) d', 'return (p.1, ← labelAt labels.reverse i)) d', 'labels are decoded in reverse', 'C37 is a claim about the set of labelings: this permutes the results (a renaming of labels), not a violation'),
('gr03', 'Graph.lean', 'graphBuild', 'Api.each (graphEdge d) edges', 'Api.each (graphEdge d) edges.tail', 'the first edge is ignored', 'C37'),
('gr04', 'Graph.lean', 'labelIds', 'List.range labels.length', 'List.range (labels.length - 1)', 'the last label is never used', 'C37'),
('qu01', 'Queens.lean', 'queensRow', '  addAllDifferent (ps.map (fun p => p.2.name))\n', '', 'one kind of diagonal is not checked', 'C36'),
('qu02', 'Queens.lean', 'queensCell', 'pyRange (-n) (n + 1)', 'pyRange 0 (n + 1)', 'negative diagonals are excluded', 'C36'),
('qu03', 'Queens.lean', 'queensBuild', '  addAllDifferent (queens.map Expr.name)\n', '', 'columns are not checked', 'C36'),
('qu04', 'Queens.lean', 'queensFill', 'listSet row v 1', 'listSet row (v - 1) 1', 'queens are drawn one column to the left', 'C36'),
('qu05', 'Queens.lean', 'queensCell', 'pyRange 0 (2 * n + 1)', 'pyRange 0 (2 * n - 2)', 'the longest sum of row and column is excluded', 'C36'),
('su01', 'Sudoku.lean', 'Cell.block', '(k.1 / 3) * 3 + k.2 / 3', '(k.1 / 3) * 3 + k.2 % 3', 'wrong block index', 'C35'),
('su02', 'Sudoku.lean', 'sudokuBuild', '  let _ ← sudokuUnits vars Cell.block\n', '', 'blocks are not checked', 'C35'),
('su03', 'Sudoku.lean', 'sudokuDiscard', "k'.1 = k.1 ∨ k'.2 = k.2 ∨ k'.block = k.block", "k'.1 = k.1 ∨ k'.2 = k.2", 'givens of the block are not discarded', 'C35'),
('su04', 'Sudoku.lean', 'sudokuUnits', 'if l.length > 1 then', 'if l.length > 2 then', 'units with two blanks are not checked', 'C35'),
('su05', 'Sudoku.lean', 'isNull', '| some v => v == 0', '| some v => v == 9', '9 counts as blank', 'C35'),
('su06', 'Sudoku.lean', 'sudokuDomain', '(pyRange 1 10)', '(pyRange 0 10)', 'blanks may be 0', 'C35'),
('kn01', 'Knapsack.lean', 'knapBuild', 'addConstraint (cmpArg .le o (.int p.1))', 'addConstraint (cmpArg .lt o (.int p.1))', 'capacities are strict', 'C33'),
('kn02', 'Knapsack.lean', 'knapBuild', 'addConstraint (cmpArg .le o (.int p.1))', 'addConstraint (cmpArg .ge o (.int p.1))', 'capacities are lower bounds', 'C32'),
('kn03', 'Knapsack.lean', 'Knapsack.objective', '⟨true, coerce', '⟨false, coerce', 'the value is minimised', 'C33'),
('kn04', 'Knapsack.lean', 'Knapsack.decode', 'let value := ((sol.zip k.values).map (fun p => p.1 * p.2)).sum', 'let value := k.values.sum', 'value sums all items', 'C32'),
('kn05', 'Knapsack.lean', 'knapRows', 'else if row.length ≠ m then .error .valueError', 'else if row.length < m then .error .valueError', 'rows that are too long are accepted', 'C34'),
('kn06', 'Knapsack.lean', 'knapBuild', 'if rows.length < vs.length then Api.raise .valueError\n    else do', 'do', 'too few rows are accepted', 'C34'),
('kn07', 'Knapsack.lean', 'knapLoad', 'mul (.int (← listAt p.2 j))', 'mul (.int (← listAt p.2 0))', 'every capacity is compared with the first weight', 'C32'),
('kn08', 'Knapsack.lean', 'Iter.again', '| .once _ => []', '| .once _ => l', 'one-shot iterables can be iterated again (fixes the code)', 'refutation C34_once_refuted'),
('kn09', 'Knapsack.lean', 'Knapsack.decode', '(List.range k.capacities.length)', '(List.range k.values.length)', 'weights reported for the wrong number of capacities', 'C32'),
('no01', 'Nonogram.lean', 'nonoGap', 'cmpArg .gt (.expr x)', 'cmpArg .ge (.expr x)', 'blocks may touch', 'C38'),
('no02', 'Nonogram.lean', 'nonoLoop', 'let stop := N - rem + 1', 'let stop := N - rem', 'the last possible start of a block is excluded', 'C38'),
('no03', 'Nonogram.lean', 'nonoSide', '(Obj.cmp .lt (.int c)', '(Obj.cmp .le (.int c)', 'blocks cover one cell too many', 'C38'),
('no04', 'Nonogram.lean', 'nonoCell', 'cmpArg .eq (Obj.pySum rs)', 'cmpArg .le (Obj.pySum rs)', 'cells of columns need not be filled by rows', 'C38'),
('no05', 'Nonogram.lean', 'nonoCell', 'if rs.isEmpty && cs.isEmpty then', 'if rs.isEmpty || cs.isEmpty then', 'cells reached from one side only are not constrained', 'C38'),
('no06', 'Nonogram.lean', 'clueLoop', 'else clueLoop cells (if count ≠ 0 then row ++ [count] else row) 0', 'else clueLoop cells (if count ≠ 0 then row ++ [count] else row) count', 'runs are not reset', 'C39'),
('no07', 'Nonogram.lean', 'clueLoop', '| [], row, count => if count ≠ 0 then row ++ [count] else row', '| [], row, _ => row', 'the last run is forgotten', 'C39'),
('no08', 'Nonogram.lean', 'nonoRow', 'pyRange start (start + v.size)', 'pyRange start (start + v.size - 1)', 'blocks are drawn one cell short', 'C38'),
('no09', 'Nonogram.lean', 'pixmapShape', '(p.length, p.foldl', '(p.length - 1, p.foldl', 'last row not seen by the columns', 'C39'),
('no10', 'Nonogram.lean', 'nonoSide', 'decide ((c : Int) < v.stop)', 'decide ((c : Int) < v.stop - v.size)', 'cells beyond the last start are thought unreachable', 'C38'),
('ei01', 'Einstein.lean', 'einLeft', '.sub (.int 1)', '.add (.int 1)', 'green is right of white', 'C43'),
('ei02', 'Einstein.lean', 'einNext', 'addIntVariable [-1, 1]', 'addIntVariable [-1, 0, 1]', 'neighbours may be the same house', 'C43'),
('ei03', 'Einstein.lean', 'einRules', '  einSame owner "Dane" drink "tea"\n', '', 'statement 3 is missing', 'C43'),
('ei04', 'Einstein.lean', 'einRules', '  einDiff smoke\n', '', 'cigarettes need not be different', 'C43'),
('ei05', 'Einstein.lean', 'einRules', 'einAt drink "milk" 3', 'einAt drink "milk" 2', 'milk in the wrong house', 'C43'),
('ei06', 'Einstein.lean', 'mkname', "if c = ' ' then '_' else c", 'c', 'blanks stay in names', 'C43: construction fails'),
('ei07', 'Einstein.lean', 'einFill', 'aset house attr value', 'aset house value attr', 'attribute and value exchanged in the result', 'C43'),
('im01', 'Image.lean', 'pySplit', "if x = c then [] :: pySplit c l", "if x = c then pySplit c l", 'newlines do not separate', 'C44'),
('im02', 'Image.lean', 'imageToPixmap', "[' ', '_']) : Res (List (List Int)) :=", "['_']) : Res (List (List Int)) :=", 'blanks count as filled', 'C44'),
('im03', 'Image.lean', 'pixmapToImage', 'List.replicate nc zero', 'List.replicate (nc + 1) zero', 'lines too long', 'C44'),
('im04', 'Image.lean', 'imageRow', 'imageRow zeroes cells (c + 1) row', 'imageRow zeroes cells c row', 'all cells go to the first column', 'C44'),
('im05', 'Image.lean', 'pyJoin', "| l :: ls => l ++ c :: pyJoin c ls", "| l :: ls => l ++ pyJoin c ls", 'lines are joined without newline', 'C44'),
('ma01', 'MapColoring.lean', 'mapOffsets', '(0, -1), (0, 1), (1, -1), (1, 0), (1, 1)]', '(0, -1), (0, 1), (1, -1), (1, 0)]', 'one diagonal direction is missing', 'C42'),
('ma02', 'MapColoring.lean', 'mapEdges', 'mapEdgesFrom gid0 (mapNeighbors group0) (gid0 + 1) groups ++ mapEdges (gid0 + 1) groups', 'mapEdgesFrom gid0 (mapNeighbors group0) (gid0 + 1) groups', 'only the first region has edges', 'C42'),
('ma03', 'MapColoring.lean', 'findCell', "if x ≠ ' ' ∧ x ≠ '.' then return some (p, x) else findCell rows ps", "if x ≠ ' ' ∧ x ≠ '.' then return some (p, x) else return none", 'the search for regions stops at a blank', 'C42'),
('ma04', 'MapColoring.lean', 'floodNeighbors', '0 ≤ q.1 ∧ q.1 < rstop ∧ 0 ≤ q.2 ∧ q.2 < cstop', '0 ≤ q.1 ∧ q.1 < rstop ∧ 0 < q.2 ∧ q.2 < cstop', 'the flood does not reach the first column', 'C42'),
('ma05', 'MapColoring.lean', 'floodNeighbors', '0 ≤ q.1 ∧ q.1 < rstop ∧ 0 ≤ q.2 ∧ q.2 < cstop', 'q.1 < rstop ∧ q.2 < cstop', 'the flood wraps around (negative indices)', 'C42'),
('ma06', 'MapColoring.lean', 'paintGroups', 'paintGroups ord solution (gid + 1) groups out', 'paintGroups ord solution gid groups out', 'all regions get the colour of the first', 'C42'),
('ma07', 'MapColoring.lean', 'mapRegions', 'maxLength map', '(map.headD []).length', 'the width is that of the first row', 'C42'),
('ma08', 'MapColoring.lean', 'mapEdgesFrom', 'if group1.any (fun p => neighbors.contains p) then', 'if group1.all (fun p => neighbors.contains p) then', 'regions are adjacent only if completely neighbouring', 'C42'),
('ma09', 'MapColoring.lean', 'flood', '⟨rows, group, []⟩\n        flood ord value rstop cstop fuel st.rows st.group st.new', '⟨rows, [], []⟩\n        flood ord value rstop cstop fuel st.rows st.group st.new', 'the group is restarted in every round', 'C42'),
('cr01', 'Cryptarithm.lean', 'ldictPart', 'p10 * 10 ^ c', '10 ^ c', 'the weight of letters ignores the digits behind them', 'C41'),
('cr02', 'Cryptarithm.lean', 'wordPart', 'st.num + digitsInt part.2 * st.p10', 'st.num + digitsInt part.2', 'literal digits have no place value', 'C41'),
('cr03', 'Cryptarithm.lean', 'ldictAppend', 'if k = l then (k, xs ++ [x]) :: d', 'if k = l then (k, [x]) :: d', 'repeated letters count once', 'C41'),
('cr04', 'Cryptarithm.lean', 'cryptWord', 'let nonZero := if isDig c then st.nonZero else charAdd st.nonZero c', 'let nonZero := st.nonZero', 'leading zeros are allowed', 'C41'),
('cr05', 'Cryptarithm.lean', 'cryptWord', 'st.offset + ((expr.length : Int) - ((span.2 : Int) - (span.1 : Int)))', 'st.offset + (expr.length : Int)', 'wrong offset in the rewritten text', 'C41'),
('cr06', 'Cryptarithm.lean', 'cryptBuild', '  addAllDifferent (es.map Expr.name)\n', '', 'letters need not be different', 'C41'),
('cr07', 'Cryptarithm.lean', 'termText', 'if t.2.sum = 1 then [t.1]', 'if t.2.length = 1 then [t.1]', 'single occurrences lose their factor', 'C41'),
('cr08', 'Cryptarithm.lean', 'cryptBuild', 'then pyRange 1 10 else pyRange 0 10', 'then pyRange 1 10 else pyRange 0 9', 'the digit 9 is not available to inner letters', 'C41'),
('cr10', 'Cryptarithm.lean', 'groupDigits', 'if isDig c = b then', 'if isDig c then', 'letters and digits are grouped wrongly', 'C41'),
('cr11', 'Lex.lean', 'natStrGo', 'natStrGo f (n / 10) ++ [digitChar (n % 10)]', '[digitChar (n % 10)] ++ natStrGo f (n / 10)', 'numbers are printed backwards', 'C41'),
('cr12', 'Cryptarithm.lean', 'wordSpans', '| pos, some b, [] => [(b, pos)]', '| _, some _, [] => []', 'the last word of the text is not translated', 'C41'),
# --- Demo
('de01', 'Demo.lean', 'solveStatsText', 'if count = 1 then "\\nFound unique', 'if count ≤ 1 then "\\nFound unique', 'unique is also said of no solution', 'C46'),
('de02', 'Demo.lean', 'Gen.statsText', '(fmt g.timer.stats.2) g.interrupt', '(fmt g.timer.stats.2) none', 'an interrupted search is reported as complete', 'C46'),
('de03', 'Demo.lean', 'optStatsText', 'optimal.getD interrupt.isNone', 'optimal.getD true', 'an interrupted optimisation is reported as optimal', 'C46'),
('de04', 'Demo.lean', 'cryptPrintGo', '(replaceGo k.toList (intStr v) 0 s)', 's', 'the letters of the equation are not replaced', 'C47'),
('de05', 'Demo.lean', 'cryptPrint', 'cryptPrintGo σ (pySorted (fun x y => decide (x < y)) σ.keys) source', 'cryptPrintGo σ (pySorted (fun x y => decide (x < y)) σ.keys).tail source', 'the first letter is forgotten', 'C47'),
('de06', 'Demo.lean', 'solveStatsText', 'some i => "\\nFound " ++ toString count', 'some i => "\\nFound " ++ toString (count - 1)', 'the number of solutions is one too small', 'C46'),
# --- Search, second round
('nx01', 'Search.lean', 'Search.step', "| .ok [] => .silent ⟨stack', s.domains⟩", '| .ok [] => .silent ⟨s.stack, s.domains⟩', 'a dead end is not left', 'C17, C51'),
('nx02', 'Search.lean', 'Search.take', "| [] => .yield σ' ⟨s.stack, d⟩", "| [] => .yield σ' ⟨s.stack.tail, d⟩", 'the choice point of the last variable is left after one solution', 'C15'),
('nx03', 'Solver.lean', 'candidates', '| some d => candLoop h info x σ d', '| some d => if info.vars.keys.length = σ.length + 1 then candLoop h info x σ d else .ok d', 'constraints are only looked at for the last variable', 'C50'),
('nx04', 'Solver.lean', 'acceptable', "  else noneUnsat h σ' (info.cons x)", "  else if info.vars.keys.all (fun y => σ'.has y) then noneUnsat h σ' (info.cons x) else .ok true", 'constraints are only checked when everything is bound', 'C50'),
('nx05', 'Optimize.lean', 'makeConstraints', 'return k :: (← makeConstraints os)', 'let _ ← makeConstraints os; return [k]', 'only the first objective is optimised', 'C53'),
('nx06', 'Optimize.lean', 'makeConstraint', 'return ⟨o, c, notSet, bound⟩', 'return ⟨o, c, bound, notSet⟩', 'flag and bound exchanged', 'C30, C53'),
('nx07', 'Search.lean', 'sysStep', '| .ok s\' => (g.resume cfg, s\')', '| .ok _ => (g.resume cfg, s)', 'the change of the bounds is not seen by the search', 'C30'),
('nx08', 'Solver.lean', 'setupOne', "bounds := addBounds vs info.bounds", 'bounds := info.bounds', 'constraints are not counted for GROUPS', 'C45'),
('nx09', 'Solver.lean', 'groupPrio', '| none => -1', '| none => 0', 'variables outside groups count as members of the first', 'C45'),
('nx10', 'Solver.lean', 'groupsLt', 'else decide (info.sizes x < info.sizes y)', 'else false', 'GROUPS ignores the size of the groups', 'C45'),
('nx11', 'Solver.lean', 'Model.domSize', 'def Model.domSize (m : Model) (x : Name) : Nat := ((m.pureVars.get? x).getD []).length', 'def Model.domSize (m : Model) (x : Name) : Nat := 0 * ((m.pureVars.get? x).getD []).length', 'MIN_BOUND and MAX_BOUND ignore the domains', 'C45'),
('nx12', 'Search.lean', 'Gen.loop', 'else if g.timedOut cfg then', 'else if g.num > 0 ∧ g.timedOut cfg = true then', 'the timeout is only checked after the first solution', 'C52'),
('nx13', 'Timer.lean', 'Timer.doStop', 't.elapsed + (now - s), none', 't.elapsed + 2 * (now - s), none', 'every segment counts twice', 'C21, C22'),
('nx14', 'Search.lean', 'Gen.loop', 'else if g.timedOut cfg then { g with', 'else if g.timedOut cfg then { g with num := 0,', 'the count is lost on timeout', 'none: num is not looked at afterwards'),
# --- texts
('tx01', 'Source.lean', 'Expr.pyText', "| .bin o l r => '(' :: l.pyText ρ ++ ' ' :: o.pySym.text ++ ' ' :: r.pyText ρ ++ [')']", "| .bin o l r => '(' :: l.pyText ρ ++ o.pySym.text ++ r.pyText ρ ++ [')']", 'no blanks around operators, so that `a and b` becomes one word', 'C54'),
('tx02', 'Source.lean', 'Expr.pyText', "| .bin o l r => '(' :: l.pyText ρ ++ ' ' :: o.pySym.text ++ ' ' :: r.pyText ρ ++ [')']", "| .bin o l r => l.pyText ρ ++ ' ' :: o.pySym.text ++ ' ' :: r.pyText ρ", 'no brackets around binary operations', 'C54'),
('tx03', 'Source.lean', 'accText', "joinChars [',', ' '] vs ++ [']', ')']", "joinChars [' '] vs ++ [']', ')']", 'elements of sums and products are not separated by commas', 'C54'),
('tx04', 'Source.lean', 'Expr.pyText', "| .un .not e => 'n' :: 'o' :: 't' :: ' ' :: e.pyText ρ", "| .un .not e => 'n' :: 'o' :: 't' :: e.pyText ρ", 'no blank behind not', 'C54'),
('tx05', 'Source.lean', 'intText', "if n < 0 then '-' :: natStr n.natAbs else natStr n.natAbs", 'natStr n.natAbs', 'negative numbers lose their sign', 'C54'),
('tx06', 'Source.lean', 'Expr.pySource', "joinChars [',', ' '] (e.vars.map String.toList ++", "joinChars [',', ' '] (e.vars.reverse.map String.toList ++", 'parameters of the function in the wrong order', 'C54'),
('tx07', 'Source.lean', 'lambdaParams', "if x ∈ pyKeywords then none else (lambdaParams r)", '(lambdaParams r)', 'keywords are accepted as parameters', 'C54'),
('tx08', 'Lex.lean', 'pairTok', "if a = '*' ∧ b = '*' then some (.op .dstar) else", '', '** is read as two operators', 'C54'),
('tx09', 'Lex.lean', 'lexStep', "some ([], .num (10 * n + (c.toNat - '0'.toNat)))", "some ([], .num (n + (c.toNat - '0'.toNat)))", 'digits of a number are added up', 'C54, C41'),
('tx10', 'Lex.lean', 'joinChars', '| p :: ps => p ++ sep ++ joinChars sep ps', '| p :: ps => p ++ joinChars sep ps ++ sep', 'join puts the separators at the end', 'C41, C54, C55'),
# --- boards and transcripts
('bo01', 'Boards.lean', 'sudokuRowText', "pyInsert lst 6 ['│']", "pyInsert lst 5 ['│']", 'a vertical line one column too far left', 'C55'),
('bo02', 'Boards.lean', 'sudokuBoard', 'sudokuBands schema 3 0 sudokuUline', 'sudokuBands schema 3 0 sudokuMline', 'the wrong line at the top', 'C55'),
('bo03', 'Boards.lean', 'sudokuBands', 'br * 3 + sr', 'br + 3 * sr', 'rows are printed in the wrong order', 'C55'),
('bo04', 'Boards.lean', 'sudokuConv', "| some v => if truthy v then intStr v else ['.']", "| some v => intStr v", 'a blank given as 0 is printed as 0', 'C55'),
('bo05', 'Boards.lean', 'queensRowText', "if truthy q then [' ', '♛', ' '] else [' ', ' ', ' ']", "if truthy q then [' ', ' ', ' '] else [' ', '♛', ' ']", 'queens on the empty fields', 'C55'),
('bo06', 'Boards.lean', 'queensLoop', "queensLoop n rows (queensRule n '├' '┼' '┤')", "queensLoop n rows hline", 'the line at the top is repeated', 'C55'),
('bo07', 'Boards.lean', 'queensRowText', "joinChars ['│'] (row.map", "joinChars ['│'] (row.reverse.map", 'the board is mirrored', 'C55'),
('bo08', 'Boards.lean', 'knapsackText', "if truthy item then ['X'] else ['_']", "if truthy item then ['_'] else ['X']", 'items taken and left are exchanged', 'C55'),
('bo09', 'Boards.lean', 'einLine', '= "a zebra" then', '= "a dog" then', 'the mark is at the wrong house', 'C55, C56'),
('bo10', 'Boards.lean', 'demoLoop', 'natStr (k + 1)', 'natStr k', 'solutions are numbered from 0', 'C56'),
('bo11', 'Boards.lean', 'demoLoop', 'demoLoop pr (k + 1) bs', 'demoLoop pr k bs', 'the number of the solution does not change', 'C56'),
('bo12', 'Boards.lean', 'demoRun', 'return ls ++ [((run n).2.statsText fmt).toList]', 'return ls', 'no line about the number of solutions', 'C56'),
('bo13', 'Boards.lean', 'oneByDefault', 'if limit = .none then Setting.num 1 else limit', 'limit', 'no default limit', 'C56'),
('bo14', 'Boards.lean', 'einOrdinal', 'if i = 2 then .ok "second" else if i = 3 then .ok "third"', 'if i = 3 then .ok "second" else if i = 2 then .ok "third"', 'second and third exchanged', 'C55'),
('bo15', 'Boards.lean', 'queensPicture', "queensLoop n board (queensRule n '┌' '┬' '┐')", "queensLoop n board (queensRule n '┌' '┼' '┐')", 'crossings in the line at the top of a chessboard', 'C55'),
('bo16', 'Boards.lean', 'sudokuMline', '"├─────────┼─────────┼─────────┤"', '"├─────────┴─────────┼─────────┤"', 'a wrong character in the frame of a sudoku', 'C55'),
('bo17', 'Boards.lean', 'queensRule', "['─', '─', '─']", "['─', ' ', '─']", 'gaps in the lines of a chessboard', 'C55'),
('bo18', 'Boards.lean', 'sudokuBands', 'sudokuBands schema n (br + 1) sudokuMline', 'sudokuBands schema n (br + 1) hline', 'the line at the top of a sudoku is repeated', 'C55'),
('st01', 'Settings.lean', 'Setting.stored', '| .infinity => Option.none', '| .infinity => some 0', 'INFINITY is stored as a bound', 'C57'),
('st02', 'Settings.lean', 'Setting.effective', 'given.getD (.ofStored own)', 'match given with | some .none => .ofStored own | some x => x | Option.none => .ofStored own', 'an argument None does not lift the bound of the solver', 'C57'),
('st03', 'Settings.lean', 'Gen.rawReached', 'decide ((g.num : Int) ≥ l)', 'decide ((g.num : Int) > l)', 'one solution more than the limit', 'C57'),
('st04', 'Settings.lean', 'callRun', '.effective args.timeout a.solver.timeout, .effective args.limit a.solver.limit', '.effective args.limit a.solver.timeout, .effective args.timeout a.solver.limit', 'the two arguments are exchanged', 'C57'),
('st05', 'Settings.lean', 'Solver.make', 'timeout := timeout.stored, limit := limit.stored', 'timeout := timeout.stored', 'the constructor ignores the limit', 'C57'),
# --- the search with forbidden values
('fo01', 'Forbidden.lean', 'Forbidden.pop', 'if c ∈ ad then (f c).erase x else f c', 'f c', 'values of earlier attempts stay forbidden', 'C58'),
('fo02', 'Forbidden.lean', 'Forbidden.put', 'if c ∈ ad ∧ c ∈ rest then (f c).set x v else f c', 'if c ∈ ad then (f c).set x v else f c', 'values are forbidden also for variables that are bound already', 'C58 (harmless: those entries are removed before they are read)'),
('fo03', 'Forbidden.lean', 'Forbidden.put', 'if c ∈ ad ∧ c ∈ rest then (f c).set x v else f c', 'if c ∈ rest then (f c).set x v else f c', 'values are forbidden for all variables, not only the neighbours', 'C58'),
('fo04', 'Forbidden.lean', 'fStep', '    let f := f.pop x (info.ad x)\n', '    let f := if s.domains.has x then f.pop x (info.ad x) else f\n', 'entries are removed only when the variable has a value already', 'C58 (harmless)'),
('fo05', 'Forbidden.lean', 'fAcceptable', 'if v ∈ fset then .ok false else noneUnsat h (σ.set x v) (info.cons x)', 'if v ∈ fset then .ok false else noneUnsat h σ (info.cons x)', 'constraints are checked before the value is entered', 'C58'),
('fo06', 'Forbidden.lean', 'FGen.loop', "{ g with timer := t, tick := g.tick + 2, interrupt := some .timeout, phase := .finished }", "{ g with timer := t, tick := g.tick + 2, phase := .finished }", 'the timeout is not recorded', 'C58'),
('fo07', 'Forbidden.lean', 'FGen.resume', '{ g with phase := .raised (.nameError "limit") }', '{ g with phase := .finished }', 'the search ends silently after the first solution', 'C58'),
('fo08', 'Forbidden.lean', 'fOrder', '| .reversed => orderVars .reversed shuffle m info', '| .reversed => info.vars.keys', 'REVERSED is not known', 'C58'),
('fo09', 'Forbidden.lean', 'fStep', "| some [] => .silent ⟨stack', s.domains.erase x⟩ f", "| some [] => .silent ⟨stack', s.domains⟩ f", 'an exhausted list of values is kept', 'C58'),
# --- programs
('sn01', 'Session.lean', 'SolveCall.effective', 'timeout := c.args.timeout.getD s.timeout', 'timeout := s.timeout', 'the argument timeout is ignored', 'C57 for programs'),
('sn02', 'Session.lean', 'Session.start', 'its := fun j => if j = i then some ⟨a.cfg, info, ks, g⟩ else s.its j }', 'its := fun _ => some ⟨a.cfg, info, ks, g⟩ }', 'starting an iteration replaces those in progress', 'C59, C65'),
('sn03', 'Session.lean', 'Session.step', "outs := fun j => if j = i then s.outs j ++ new else s.outs j }", "outs := fun j => s.outs j ++ new }", 'solutions are handed to all iterations', 'C59'),
('sn04', 'Session.lean', 'Session.step', 'let (it\', h, new) := it.advance s.heap', 'let (it\', h, new) := ({ it with cfg := ((calls i).effective (s.solvers (calls i).solver) s.objs).cfg } : Iteration).advance s.heap', 'limit and timeout are read again at every step', 'C59, C65'),
('sn05', 'Session.lean', 'Session.step', 'let (it\', h, new) := it.advance s.heap', 'let (it\', h, new) := ({ it with info := (startSolve ((calls i).effective (s.solvers (calls i).solver) s.objs) (s.models (calls i).model) s.heap).2.1 } : Iteration).advance s.heap', 'the constraints are read from the model again at every step', 'C59, C65'),
('sn06', 'Session.lean', 'Session.create', 'objs := s.objs ++ [some k]', 'objs := some k :: s.objs', 'a new object takes the number of another', 'C59, C65'),
('sn10', 'Session.lean', 'Iteration.advance', '| .ok h\' => ({ it with gen := g }, h\', [σ])', '| .ok _ => ({ it with gen := g }, h, [σ])', 'the bounds are not tightened', 'C65'),
('sn11', 'Session.lean', 'Iteration.advance', '({ it with gen := { g with phase := .raised e } }, h, [])', '({ it with gen := g }, h, [σ])', 'an objective that raises is ignored', 'C65'),
('sn12', 'Session.lean', 'Iteration.advance', '({ it with gen := { g with phase := .raised e } }, h, [])', '({ it with gen := { g with phase := .finished } }, h, [])', 'an objective that raises ends the iteration quietly', 'C65'),
('sn13', 'Session.lean', 'Session.start', 'objs := s.objs ++ ks.map (fun _ => none)', 'objs := s.objs', 'the next constraint object takes the number of one that optimize has made', 'C65, C59'),
('sn14', 'Session.lean', 'Session.start', 'startSolve (a.withObjectives ks) w.model w.heap', 'startSolve a w.model w.heap', 'the constraints of the objectives are not handed to solve', 'C65'),
('sn15', 'Session.lean', 'Session.start', 'its := fun j => if j = i then some ⟨a.cfg, info, ks, g⟩ else s.its j }', 'its := fun j => if j = i then some ⟨a.cfg, info, [], g⟩ else s.its j }', 'optimize forgets its constraints and tightens nothing', 'C65'),
('sn16', 'Session.lean', 'Iteration.advance', '| .suspended _ => ({ it with gen := it.gen.resume it.cfg }, h, [])', '| .suspended σ => ({ it with gen := it.gen.resume it.cfg }, (match onSolution it.objs h σ with | .ok h2 => h2 | .error _ => h), [])', 'the bounds are set again when the iteration is resumed, with whatever values parameters have then', 'C65'),
('sn17', 'Session.lean', 'Session.start', 'match makeConstraints c.objectives ⟨s.models c.model, s.heap⟩ with', 'match makeConstraints (c.objectives.take 1) ⟨s.models c.model, s.heap⟩ with', 'only the first objective is used', 'C65'),
('sn07', 'Session.lean', 'Session.api', 'if j = m then w.model else s.models j', 'w.model', 'a method of one model changes all models', 'C59'),
('sn08', 'Constraint.lean', 'Heap.newConstraint', 'if i = h.ncons then none else h.fns i', 'none', 'a new constraint object forgets all compiled functions', 'C60, C25'),
('sn09', 'Constraint.lean', 'Heap.newParam', '{ h.setParam h.nparams v with nparams := h.nparams + 1 }', '{ h.setParam 0 v with nparams := h.nparams + 1 }', 'a new parameter overwrites the first one', 'C59, C26'),
# --- the report of the knapsack demo, texts of solutions
('rp01', 'Report.lean', 'tupleText', "| [v] => '(' :: intStr v ++ [',', ')']", "| [v] => '(' :: intStr v ++ [')']", 'a tuple of one element is printed without its comma', 'C61'),
('rp02', 'Report.lean', 'knapsackReport', '(if r.isOptimal then "True".toList else "False".toList)', '"True".toList', 'is_optimal is always printed as True', 'C61'),
('rp03', 'Report.lean', 'knapsackReport', '(optStatsText count secs interrupt (some r.isOptimal)).toList', '(optStatsText count secs interrupt none).toList', 'the last line does not look at is_optimal', 'C61'),
('rp04', 'Report.lean', 'knapsackReport', '"value: ".toList ++ orNone intStr r.value', '"value: ".toList ++ intStr count', 'the number of iterations is printed as the value', 'C61'),
('rp05', 'Report.lean', 'knapsackReport', '| none => ["no solution found".toList]', '| none => []', 'nothing is said if there is no solution', 'C61'),
('rp06', 'Report.lean', 'mapText', '| some (l, c) => colored l c', "| some _ => [' ']", 'regions are printed as blanks', 'C56'),
('rp07', 'Report.lean', 'dictText', "ra p.1 ++ [':', ' '] ++ rb p.2", "ra p.1 ++ [':', ' ']", 'the labels are not printed', 'C56'),
# --- the command line
('cl01', 'Cli.lean', 'typeOnOff', 'x = "on".toList ∨ x = "true".toList', 'x = "on".toList', 'the word true is not known', 'C62'),
('cl02', 'Cli.lean', 'typeOnOff', 'let x := x.map Char.toLower', 'let x := x', 'capital letters are not accepted', 'C62'),
('cl03', 'Cli.lean', 'typeOnOff', 'decide ((← pyInt x) ≠ 0)', 'decide ((← pyInt x) > 0)', 'negative numbers are off', 'C62'),
('cl04', 'Cli.lean', 'intDigits', "else if c = '_' ∧ prev then", "else if c = '_' then", 'underscores are accepted anywhere before a digit', 'C62'),
('cl05', 'Cli.lean', 'intDigits', '| false, _, [] => .error .valueError', '| false, n, [] => .ok n', 'the empty text is 0, and a trailing underscore is accepted', 'C62'),
('ke01', 'Knapsack.lean', 'asInt', '| none => .error .typeError', '| none => .error .valueError', 'ValueError instead of TypeError for a value that is not an int', 'C34: what is raised'),
('ke02', 'Knapsack.lean', 'knapRows', 'if k ≥ n then .error .valueError', 'if k ≥ n then .error .indexError', 'IndexError for too many rows', 'C34: what is raised'),
('ke03', 'Knapsack.lean', 'knapRows', 'else if row.length ≠ m then .error .valueError', 'else if row.length ≠ m then .error .typeError', 'TypeError for a row of the wrong length', 'C34: what is raised'),
('ke04', 'Knapsack.lean', 'knapBuild', 'if rows.length < vs.length then Api.raise .valueError', 'if rows.length < vs.length then Api.raise .indexError', 'IndexError for too few rows', 'C34: what is raised'),
('cd01', 'CommandLine.lean', 'sizeOpt', '.one, .none, .int 8, toIntArg', '.one, .none, .int 6, toIntArg', 'default board size 6', 'C73: defaults'),
('cd02', 'CommandLine.lean', 'Command.functionArgs', '| .graphLabeling => .inputFile :: .labels :: solveArgs', '| .graphLabeling => .inputFile :: solveArgs', 'the labels are not passed to the demo', 'C73: the demo is called with a value for each parameter'),
('cd03', 'CommandLine.lean', 'zerosOpt', '.optional, .text "on".toList, .bool true', '.optional, .text "off".toList, .bool true', 'a bare -z turns the leading zero check off', 'C73'),
('cd04', 'CommandLine.lean', 'Command.exclusive', '| .nonogram => [.inputFile, .inputImage]', '| .nonogram => []', 'the two inputs of the nonogram are not exclusive', 'C73: not both inputs'),
('cd05', 'CommandLine.lean', 'limitOpt', '.limit, .optional, .infinity, .none, toIntArg', '.limit, .optional, .none, .none, toIntArg', 'a bare -l is the same as no -l', 'C73'),
('cd06', 'CommandLine.lean', 'ParseState.plains', 'space := setDest s.space d (.text t), positional := none', 'space := setDest s.space d (.text t)', 'several sources are accepted, the last one counts', 'C73: surplus arguments'),
('cd07', 'CommandLine.lean', 'OptDecl.take', '| .plus, t :: r => some (.texts (t :: r), [])', '| .plus, t :: r => some (.texts [t], r)', 'only one label is taken', 'C73: -L takes all that follow'),
('cd08', 'CommandLine.lean', 'Command.options', '| .nonogram => fileOpt o :: imageOpt o :: solveOpts o', '| .nonogram => imageOpt o :: solveOpts o', 'the nonogram does not know -i', 'C73'),
('cd09', 'CommandLine.lean', 'ParseState.option', 'if p.1.dest ∈ group ∧ ∃ d ∈ s.seen, d ≠ p.1.dest then none', 'if p.1.dest ∈ group ∧ s.seen ≠ [] then none', 'the same input given twice is refused', 'C73: the last one counts'),
('cd10', 'CommandLine.lean', 'Command.start', '| some x => some x.default', '| some x => some x.const', 'defaults and constants mixed up', 'C73: defaults'),
('cd11', 'CommandLine.lean', 'setDest', "if d' = d then some v else space d'", "if d' = d then (if (space d).isSome then space d else some v) else space d'", 'options are ignored', 'C73'),
('cd12', 'CommandLine.lean', 'timeoutOpt', '.timeout, .optional, .infinity, .none, o.toFloat', '.timeout, .optional, .infinity, .none, toIntArg', 'timeouts have to be integers', 'C73'),
('cl06', 'Cli.lean', 'pyInt', "| '-' :: ds => do return -((← intDigits false 0 ds : Nat) : Int)", "| '-' :: ds => do return ((← intDigits false 0 ds : Nat) : Int)", 'the sign is dropped', 'C62'),
('cl07', 'Cli.lean', 'pyInt', '(dropBlanks (dropBlanks text).reverse).reverse', 'dropBlanks text', 'blanks at the end are not accepted', 'C62'),
('cl08', 'Cli.lean', 'limitOption', '| .bare => .ok .infinity', '| .bare => .ok .none', 'a bare -l is the same as none, so the sudoku demo stops after one solution', 'C62'),
('cl09', 'Cli.lean', 'zOption', '| .absent => .ok true', '| .absent => .ok false', '-z is off by default', 'C62'),
('cl10', 'Cli.lean', 'jsonSource', '| some content => .ok content', '| some _ => .ok default', 'the input file is ignored', 'C62'),
('cl11', 'Cli.lean', 'isBlank', '(9 ≤ c.toNat ∧ c.toNat ≤ 13)', '(9 ≤ c.toNat ∧ c.toNat ≤ 10)', 'carriage return is no blank', 'C62'),
('li01', 'Listing.lean', 'varLine', '| some _ => (dom p.1).text)', '| some _ => "None".toList)', 'domains are not listed', 'C63'),
('li02', 'Listing.lean', 'CKind.text', '((sortNames (dedup names)).map reprName)', '(((sortNames (dedup names)).take 2).map reprName)', 'only two names of an all-different constraint are listed', 'C63'),
('li03', 'Listing.lean', 'CKind.text', 'if b then "True".toList else "False".toList', '"False".toList', 'all constant constraints are listed as False', 'C63'),
('li04', 'Listing.lean', 'PyDomain.text', "| .list vs => '[' :: joinChars [',', ' ']", "| .list vs => '[' :: joinChars []", 'the values of a list are not separated', 'C63'),
('li05', 'Listing.lean', 'PyDomain.text', '(if s = 1 then [a, b] else [a, b, s])', '[a, b]', 'the step of a range is not listed', 'C63'),
('li06', 'Listing.lean', 'listing', 'm.constraints.mapIdx conLine', '(m.constraints.take 1).mapIdx conLine', 'only the first constraint is listed', 'C63'),
('li07', 'Listing.lean', 'reprName', 'x.toList.flatMap', '(x.toList.take 8).flatMap', 'long names are cut', 'C63'),
('li08', 'Source.lean', 'Expr.strText', "| .un .abs e => 'a' :: 'b' :: 's' :: '(' :: e.strText ++ [')']", '| .un .abs e => e.strText', 'abs is not printed', 'C63, C54'),
('li09', 'Source.lean', 'accText', 'match (if c ≠ k.neutral then [intText c] else []) ++ vs with', 'match vs with', 'the constant of a sum is not printed', 'C63, C54'),
('do01', 'Domains.lean', 'RInfo.sized', 'match p.2.obj o with | .seq _ => true | .iter _ => false', 'match p.2.obj o with | .seq _ => true | .iter _ => true', 'iterators are taken as sized', 'C64'),
('do02', 'Domains.lean', 'retuple', '| some d => vars.set x (.tuple d)', '| some _ => vars', 'a filtered domain is thrown away', 'C64'),
('do03', 'Domains.lean', 'RWorld.declare', 'dom := fun y => if y = x then v else w.dom y', 'dom := fun _ => v', 'all variables get the domain of the last one', 'C64'),
('do04', 'Domains.lean', 'DomObj.scanned', '| .seq d => .seq d', '| .seq _ => .seq (.list [])', 'reading a sequence empties it', 'C64'),
('do05', 'Domains.lean', 'rRun', 'candidates (ri.view s.2) s.1) act', 'candidates (ri.view w.objs) s.1) act', 'the domains are copied at the start of an iteration', 'C64 (C64_during)'),
('do06', 'Domains.lean', 'rstart', 'orderVars a.solver.policy a.shuffle w.live (ri.view w.objs)', 'orderVars a.solver.policy a.shuffle w.world.model (ri.view w.objs)', 'the order of the variables uses the sizes at the declaration', 'C64'),
('do07', 'Domains.lean', 'RCall.run', '.declare (.ref r) (w.objs r).values n).1', '.declare (.tuple (w.objs r).values) [] n).1', 'the duplicate check is left out', 'C64'),
('do08', 'Domains.lean', 'rsetup', 'checkGroups (ri.view w.objs).vars ri.rest.groups', 'checkGroups (ri.view w.objs).vars []', 'the groups are not checked', 'C64'),
# --- what an optimisation leaves out
('be01', 'Optimize.lean', 'ObjCon.addSolution', 'return k.setBound v h', 'return k.setBound (if k.obj.maximize then v + 1 else v - 1) h', 'the bound asks for an improvement by two', 'C66, C30'),
('be02', 'Optimize.lean', 'ObjCon.addSolution', 'return k.setBound v h', 'return k.setBound (match k.bound.eval h.params [] with | .ok b => max v b | .error _ => v) h', 'the bound only grows, also when minimizing', 'C30'),
('be03', 'Optimize.lean', 'ObjCon.addSolution', 'let v ← k.obj.expr.eval h.params σ', 'let v ← k.obj.expr.eval h.params (σ.drop 1)', 'the objective is evaluated without the first variable', 'C28 (an exception after the first solution), C66'),
('be04', 'Optimize.lean', 'boundExpr', 'Obj.cmp o.cmp', 'Obj.cmp .lt', 'every objective is minimized', 'C66, C30'),
('be05', 'Optimize.lean', 'onSolution', 'do onSolution ks (← k.addSolution h σ) σ', 'do let h ← onSolution ks h σ; k.addSolution h σ', 'the objectives are updated from the last to the first', 'none: the order does not matter unless one raises'),
('be06', 'Optimize.lean', 'optimalSolution', 'r.1.getLast?⟩', '(r.1.dropLast.getLast?).or r.1.getLast?⟩', 'the last but one solution is returned', 'C30, C66'),
# --- solutions as objects
('ob01', 'Objects.lean', 'OSearch.step', "let r' := d.next\n    let d := d.copy r", "let r' := r", 'the substitution on the stack is not copied', 'C67'),
('ob02', 'Objects.lean', 'OSearch.step', "| some (v :: vs) => s.take x rest r' v vs d", "| some (v :: vs) => s.take x rest r v vs d", 'copied only when the domain is computed: later values are written into the dict on the stack', 'C67_distinct, C67_untouched'),
('ob03', 'Objects.lean', 'OSearch.take', "| _ :: _ => (d, .silent ⟨(rest, r) :: s.stack, doms⟩)", "| _ :: _ => (d, .silent ⟨(rest, 0) :: s.stack, doms⟩)", 'one dict for the whole search', 'C67_isolated'),
('ob04', 'Objects.lean', 'oCandLoop', "(d, .ok (if ok then v :: rest else rest))", "(d.write r ((d.cell r).erase x), .ok (if ok then v :: rest else rest))", 'the item written for a candidate is deleted again after the loop (order of the items unchanged, as the variable is bound last)', 'none'),
('ob05', 'Objects.lean', 'OSearch.take', "| [] => (d, .yield r ⟨s.stack, doms⟩)", "| [] => (d, .yield r ⟨([x], r) :: s.stack.tail, doms⟩)", 'the dict handed out stays on the stack', 'C67_isolated'),
('ob06', 'Objects.lean', 'oStep', "| .suspended r => match act h (s.dicts.cell r) with", "| .suspended r => match act h ((s.edit es).dicts.cell r) with", 'the objectives are evaluated after the caller has had the solution', 'C67_isolated, C67_optimize'),
('ob07', 'Objects.lean', 'oStart', "⟨[(x :: xs, d.next)], []⟩ }), d.make [], given⟩)", "⟨[(x :: xs, d.next)], []⟩ }), d.make [], given ++ [d.next]⟩)", 'the caller can reach the first dict', 'C67_isolated'),
# --- Python syntax over expressions
('sy02', 'Syntax.lean', 'Src.obj (chain)', "if r.truth then return Obj.cmp c₂ y (← d.obj env) else return r", "if r.truth then return Obj.cmp c₂ x (← d.obj env) else return r", 'the second comparison of a chain uses the first operand', 'C68_partial'),
('sy03', 'Syntax.lean', 'Obj.pyMax', "(Obj.cmp .gt o m).truth then o else m", "(Obj.cmp .gt m o).truth then o else m", 'max compares the wrong way round', 'C68_partial (max of numbers)'),
('sy04', 'Syntax.lean', 'Obj.pyMin', "(Obj.cmp .lt o m).truth then o else m", "(Obj.cmp .lt o m).truth then m else o", 'min keeps the larger', 'C68_partial, C68_max_last'),
('sy05', 'Syntax.lean', 'Src.obj (either)', "if x.truth then return x else b.obj env", "if x.truth then return .int 1 else b.obj env", 'or gives True instead of its operand', 'C68_partial'),
('sy06', 'Syntax.lean', 'Obj.chainAll', "if r.truth then Obj.chainAll b cs else r", "if r.truth then Obj.chainAll a cs else r", 'every part is compared with the first', 'C68_chain_last'),
('sy07', 'Syntax.lean', 'Src.obj (cond)', "if x.truth then a.obj env else b.obj env", "if x.truth then b.obj env else a.obj env", 'if and else exchanged', 'C68_partial'),
('sy08', 'Syntax.lean', 'Src.obj (amp)', "(← a.obj env).and (← b.obj env)", "(← b.obj env).and (← a.obj env)", 'the operands of & are exchanged', 'none: & commutes'),
('ca01', 'Build.lean', 'cmpArg', '| .int _ => .other', '| .int n => .bool (truthy n)', 'the comparison of two Const objects is accepted as if it were a bool', 'C41: where the constructor raises TypeError'),
('ca02', 'Cryptarithm.lean', 'Ast.isBool', '| .ok (.int _), .ok (.int _) => true\n    | _, _ => false', '| .ok (.int _), .ok (.int _) => false\n    | _, _ => false', 'the comparison of two numbers is taken for an int, and raises TypeError', 'C41: equations without letters'),
('ca03', 'Cryptarithm.lean', 'Obj.asArg', '| .int n => if isBool then .bool (truthy n) else .other', '| .int n => .bool (truthy n)', 'eval gives an int: taken as a bool', 'C41: where the constructor raises TypeError'),
('ca04', 'Cryptarithm.lean', 'Obj.asArg', '| .int n => if isBool then .bool (truthy n) else .other', '| .int n => if isBool then .bool true else .other', 'a false equation between numbers is taken for a true one', 'C41: equations without letters'),
('bt01', 'Py.lean', 'pyBitOr', '| .negSucc m, .ofNat n => .negSucc (m ^^^ (m &&& n))', '| .negSucc m, .ofNat n => .negSucc (n ^^^ (n &&& m))', '| of a negative and a non-negative number uses the bits of the wrong operand', 'C01: | between numbers'),
('bt02', 'Py.lean', 'pyBitAnd', '| .ofNat m, .negSucc n => .ofNat (m ^^^ (m &&& n))', '| .ofNat m, .negSucc n => .ofNat (m &&& n)', '& with a negative number ignores the sign', 'C01: & between numbers'),
('bt03', 'Py.lean', 'pyFloorDiv', '.error .zeroDivision else .ok (a.fdiv b)', '.error .zeroDivision else .ok (a.tdiv b)', 'the quotient is rounded towards 0', 'C01: /'),
('tm01', 'Timer.lean', 'Timer.abort', 'if t.running then t.doStop now 0 else .ok t', 'if t.running then t.doStop now 1 else .ok t', 'abort() counts', 'C69'),
('tm02', 'Timer.lean', 'Timer.doStop', '| some s => .ok ⟨t.elapsed + (now - s), none, t.count + count⟩', '| some s => .ok ⟨now - s, none, t.count + count⟩', 'stop() forgets the segments before', 'C69, C22: stats'),
('tm03', 'Timer.lean', 'Timer.doStart', 'if t.running then .error .runtimeError else', 'if false then .error .runtimeError else', 'start() of a running timer starts it anew', 'C69'),
('tm04', 'Timer.lean', 'Timer.elapsedAt', '| some s => t.elapsed + (now - s)', '| some s => now - s', 'elapsed() gives the current segment only', 'C69, C21: timeout'),
('sk01', 'Sudoku.lean', 'sudokuCheck', 'else if p.2 ≥ 9 then (.error .indexError : Res Unit)', 'else if p.2 ≥ 9 then (.error .valueError : Res Unit)', 'rows that are too long raise ValueError', 'C35: what is raised'),
('sk02', 'Sudoku.lean', 'sudokuCell', '| none => Api.raise .attributeError', '| none => Api.raise .indexError', 'rows that are too short raise IndexError', 'C35: what is raised'),
('rr01', 'Repr.lean', 'Expr.reprText', '| .acc k c es => callText k.className (joinChars [\',\', \' \'] (Expr.reprTexts es) ++ ", const=".toList ++ intText c)', '| .acc k _c es => callText k.className (joinChars [\',\', \' \'] (Expr.reprTexts es))', 'the repr of a sum leaves out the constant', 'C70'),
('rr02', 'Repr.lean', 'Expr.reprText', '| .param _ n => callText "Parameter".toList (reprName n)', '| .param _ n => callText "Variable".toList (reprName n)', 'a parameter is shown as a variable', 'C70'),
('rr03', 'Repr.lean', 'BOp.className', '| .ne => "Ne".toList', '| .ne => "Eq".toList', '!= is shown as Eq', 'C70'),
('rr04', 'Repr.lean', 'Expr.reprText', '| .bin op l r => callText op.className (joinChars [\',\', \' \'] [l.reprText, r.reprText])', '| .bin op l r => callText op.className (joinChars [\',\', \' \'] (if r.reprText.length < l.reprText.length then [r.reprText, l.reprText] else [l.reprText, r.reprText]))', 'operands are sorted', 'C70'),
('rr05', 'Repr.lean', 'CKind.reprText', 'sortNames (dedup names)', 'names', 'the variables of an all-different constraint are not sorted', 'C70: same set'),
('rr06', 'Listing.lean', 'reprName', "if c = '\\n' then ['\\\\', 'n'] else [c]", "if c = '\\n' then [] else [c]", 'a newline at the end of a name is not shown', 'C70'),
('sg01', 'Singleton.lean', 'Singletons.new', 'let s := if v = none then', 'let s := if true then', 'every call makes a new object', 'C71'),
('sg02', 'Singleton.lean', 'Singletons.set', 'fun d => if d = c then some (some o) else s.own d', 'fun d => if d = c ∨ d = .singleton then some (some o) else s.own d', 'the attribute of the base class is set, too', 'C71'),
('sg03', 'Singleton.lean', 'Singletons.start', '⟨fun _ => some none, []⟩', '⟨fun c => if c = .singleton then some none else none, []⟩', 'derived classes have no attribute of their own', 'C71'),
('mq01', 'Model.lean', 'addIntVariable', 'if hasDup domain then Api.raise .valueError', 'if hasDup domain then Api.raise .keyError', 'a duplicate in a domain raises KeyError', 'C72'),
('mq02', 'Model.lean', 'Model.getVarDomain', '| none => .error .keyError\n  | some i => .ok i.domain', '| none => .error .valueError\n  | some i => .ok i.domain', 'get_var_domain raises ValueError', 'C72'),
('mq03', 'Model.lean', 'Model.getVariable', '| some k => .param k x)', '| some _k => .var x)', 'get_variable gives a variable for a parameter', 'C72'),
('mq04', 'Model.lean', 'addParameter', 'let name ← getName "_p" name', 'let name ← getName "_v" name', 'parameters are called _v', 'C72'),
('mq05', 'Model.lean', 'toConstraint', '| .other => Api.raise .typeError', '| .other => Api.raise .valueError', 'add_constraint raises ValueError for other objects', 'C72'),
('pg01', 'Program.lean', 'queensDemo', 'printed (showModel show_ rangeObject w.model)\n        (demoRun', 'printed []\n        (demoRun', '-s is ignored by the queens demo', 'C74: with -s the listing'),
('pg02', 'Program.lean', 'queensDemo', '(m.solveArgs .groups timeout limit) w (queensDecode', '(m.solveArgs .groups timeout .none) w (queensDecode', 'the queens demo does not pass on the limit', 'C74: limit'),
('pg03', 'Program.lean', 'queensDemo', '(m.solveArgs .groups timeout limit) w (queensDecode', '(m.solveArgs .groups limit timeout) w (queensDecode', 'the queens demo exchanges limit and timeout', 'C74'),
('pg04', 'Program.lean', 'riddleObject', 'if d = [-1, 1] then .list d else .tuple d', '.list d', 'the listing of the riddle shows tuples as lists', 'C74_einstein: listing'),
('pg05', 'Program.lean', 'einsteinDemo', "printed (einRiddle ++ ['\\n'] ++ showModel show_ riddleObject w.model)", "printed (showModel show_ riddleObject w.model ++ einRiddle ++ ['\\n'])", 'the riddle is printed after the listing', 'C74: order'),
('pg06', 'Program.lean', 'einStatement', "List.replicate (2 - (natStr i).length) ' ' ++ natStr i", 'natStr i', 'the numbers of the statements are not padded', 'C74_einstein_text'),
('pg07', 'Program.lean', 'cryptarithmDemo', "| .text s => (s ++ ['\\n'], s)", '| .text s => ([], s)', 'the source of the cryptarithm is not printed', 'C74_cryptarithm'),
('pg08', 'Program.lean', 'orOne', 'if limit = .none then .int 1 else limit', 'limit', 'sudoku and map have no limit by default', 'C74_sudoku, C74_map'),
('pg09', 'Program.lean', 'Machine.load', '| .file f => ([], m.json (m.content f))', '| .file f => ([], m.json f)', 'the name of the file is read instead of its content', 'C74: file'),
('pg10', 'Program.lean', 'Machine.load', '| _ => (noInput what source, m.json source)', '| _ => ([], m.json source)', 'the default is not announced', 'C74: without a file'),
('pg11', 'Program.lean', 'Machine.clues', '| .file f, _ => ([], readClues (m.json (m.content f)))\n  | _, .file f => ([], some (imageToNonogram (m.content f)))', '| .file f, _ => ([], some (imageToNonogram (m.content f)))\n  | _, .file f => ([], readClues (m.json (m.content f)))', 'image and document exchanged', 'C74_nonogram'),
('pg12', 'Program.lean', 'Json.clues', '| some rows, some cols => some (.ok (rows, cols))', '| some rows, some cols => some (.ok (cols, rows))', 'rows and columns exchanged', 'C74_nonogram'),
('pg13', 'Program.lean', 'sudokuDemo', '"=== sudoku schema ===\\n".toList ++ board.flatMap (· ++ [\'\\n\']) ++ showModel', '"=== sudoku schema ===\\n".toList ++ showModel', 'the schema is not drawn', 'C74_sudoku'),
('pg14', 'Program.lean', 'graphDemo', '(m.solveArgs .ordered timeout limit) w (graphDecode', '(m.solveArgs .ordered timeout (orOne limit)) w (graphDecode', 'the graph demo has the limit 1', 'C74_graph'),
('pg15', 'Program.lean', 'mapDemo', '| .file _, _ => .raised .typeError', '| .file f, .texts colors => mapDemoOn m [String.ofList (m.content f)] colors timeout limit show_ n\n  | .file _, _ => .raised .typeError', 'the map demo reads its file', 'C74_map_file (the code raises)'),
('pg16', 'Program.lean', 'Json.items', 'some (.ok (vs, cs, ws))', 'some (.ok (cs, vs, ws))', 'values and capacities exchanged', 'C74_knapsack'),
('pg17', 'Program.lean', 'program', 'graphDemo m (kwarg kw .inputFile) (kwarg kw .labels)', 'graphDemo m (kwarg kw .inputFile) (kwarg kw .colors)', 'the wrong parameter is used for the labels', 'C74_graph'),
('pg18', 'Program.lean', 'printed', "lines.flatMap (· ++ ['\\n'])", 'lines.flatMap (fun l => l)', 'no line breaks', 'C74'),
('pg19', 'Program.lean', 'defaultKnapsack', '"        [4, 4],"', '"        [4, 3],"', 'another weight in the default data', 'C74_knapsack_default'),
('pg20', 'Program.lean', 'defaultSudoku', '"    [0, 9, 0, 0, 0, 0, 4, 0, 0]"', '"    [0, 9, 0, 0, 0, 4, 0, 0, 0]"', 'another default sudoku', 'C74_sudoku_default'),
('pg21', 'Program.lean', 'knapsackProgram', 'printed (greeting ++ showModel show_ .tuple w.model)\n          ((knapsackDemo', 'printed (greeting ++ showModel show_ .list w.model)\n          ((knapsackDemo', 'the listing of the knapsack shows lists', 'C74_knapsack'),
('pg22', 'Program.lean', 'Json.maybeInt', '| .num i => some (some i)\n  | .bool b', '| .num i => some (some (Int.natAbs i))\n  | .bool b', 'signs of the numbers in the data are dropped', 'C74_knapsack'),
('sy01', 'Listing.lean', 'PyDomain.text', "| .set vs => '{' ::", "| .set vs => '[' ::", 'sets are shown with square brackets', 'C63'),
('at01', 'Attributes.lean', 'SolverObj.setPolicy', '  | .policy _ => .ok { s with policy := v }\n  | _ => .error .typeError', '  | _ => .ok { s with policy := v }', 'the setter accepts anything as policy', 'C75_assign: a policy that is none is rejected'),
('at02', 'Attributes.lean', 'SolverObj.setTimeout', '{ s with timeout := if v = .infinity then .none else v }', '{ s with timeout := v }', 'INFINITY is stored as timeout', 'C75_history'),
('at03', 'Attributes.lean', 'SolverObj.setLimit', '{ s with limit := if v = .infinity then .none else v }', '{ s with timeout := if v = .infinity then .none else v }', 'the setter of limit sets the timeout', 'C75_history'),
('at04', 'Attributes.lean', 'SolverObj.setCompile', '{ s with compile := v.truth }', '{ s with compile := v != .none }', 'compile_constraints=0 is taken for true', 'C75_history'),
('at05', 'Attributes.lean', 'SolverObj.init', 'getD (.policy .groups)', 'getD (.policy .ordered)', 'another default policy', 'C75_constructor'),
('at06', 'Attributes.lean', 'SolverObj.init', 'if args.keys.any (fun k => decide (k ∉ settingNames)) then .error .typeError', 'if args.keys.any (fun _ => false) then .error .typeError', 'the constructor ignores unknown keywords', 'C75_constructor'),
('at07', 'Attributes.lean', 'SolverObj.init', 'getD (.num 1))', 'getD (.num 0))', 'constraints are not compiled by default', 'C75_constructor'),
('at08', 'Attributes.lean', 'SolverObj.solve', '((args.get? "limit").getD s.limit).setting⟩', '(Value.setting s.limit)⟩', 'the limit of the call is ignored', 'C75_partial: the settings of the call are used'),
('at09', 'Attributes.lean', 'SolverObj.solve', '((args.get? "timeout").getD s.timeout).setting', '((args.get? "limit").getD s.timeout).setting', 'the limit is taken for the timeout', 'C75_partial'),
('at10', 'Attributes.lean', 'Value.selects', '| _ => .ordered', '| _ => .groups', 'a wrong policy means GROUPS', 'C75_wrong_policy'),
('at11', 'Attributes.lean', 'modelSolverInit', '  | some s => .ok s', '  | some _ => SolverObj.init args', 'a given solver is not used', 'C75_model_solver'),
('at12', 'Attributes.lean', 'makeChecked', '  | none :: _ => Api.raise .valueError', '  | none :: rest => makeChecked rest', 'what is no objective is skipped', 'C75_not_an_objective'),
('at13', 'Attributes.lean', 'makeChecked', 'Api.raise .valueError', 'Api.raise .typeError', 'another exception', 'C75_not_an_objective'),
('at14', 'Attributes.lean', 'optimizeGiven', '  | .one o => go [some o]', '  | .one o => go [some o, some o]', 'the objective is used twice', 'C75_optimize'),
('at15', 'Attributes.lean', 'Objective.make', '| .expr e => .ok ⟨maximize, e⟩', '| .expr e => .ok ⟨!maximize, e⟩', 'Minimize maximizes', 'C75_objective'),
('at16', 'Attributes.lean', 'SolverObj.after', '  | .error _ => s\n', '  | .error _ => { s with policy := .none }\n', 'a rejected policy removes the old one', 'C75_assign'),
('at17', 'Attributes.lean', 'Value.truth', '| .policy _ => true', '| .policy p => p != .ordered', 'ORDERED, the member with value 0, is false', 'Value.truth (Python: members of Enum are true)'),
('tr01', 'Program.lean', 'Json.field', '  | none => .error .keyError', '  | none => .error .valueError', 'another exception for a missing key', 'C76_nonogram_key, C76_knapsack_key'),
('tr02', 'Program.lean', 'readClues', '  | none => some (.error .valueError)', '  | none => some (.ok ([], []))', 'clues that cannot be read are taken for no clues', 'C76_not_json'),
('tr03', 'Program.lean', 'knapsackProgram', '  | (_, none) => .raised .valueError\n  | (greeting, some j) =>\n    match j.items with', '  | (_, none) => .raised .typeError\n  | (greeting, some j) =>\n    match j.items with', 'another exception for a file that is not JSON', 'C76_not_json'),
('tr04', 'Program.lean', 'sudokuDemo', '      | .error e, _ => .raised e\n      | _, (_, .error e) => .raised e', '      | _, (_, .error e) => .raised e\n      | .error e, _ => .raised e', 'the solver is made before the schema is printed', 'C76_sudoku_wrong: too few rows end in IndexError'),
('tr05', 'Program.lean', 'Json.maybeInt', '  | .bool b => some (some (if b then 1 else 0))', '  | .bool _ => some none', 'true and false are no ints', 'C76_knapsack_wrong'),
('tr06', 'Program.lean', 'queensDemo', '  | .int i =>\n    match queensBuild', '  | .int i => if i ≤ 0 then .raised .valueError else\n    match queensBuild', 'an empty board is refused', 'C76_queens'),
('tr07', 'Program.lean', 'cryptarithmDemo', '  match cryptBuild m.ord source (decide (avoid = .bool true)) ⟨.empty, m.heap⟩ with\n  | (_, .error e) => .raised e', '  match cryptBuild m.ord source (decide (avoid = .bool true)) ⟨.empty, m.heap⟩ with\n  | (_, .error _) => .text greeting', 'an exception is swallowed', 'C76_cryptarithm_constant'),
('tr08', 'Report.lean', 'knapsackDemo', '  | some (.error e) => some (.error e)', '  | some (.error _) => some (.ok [])', 'the exception of the call is swallowed', 'C76_knapsack_wrong: no items'),
('rl01', 'Cryptarithm.lean', 'OpTok.cmp?', '| .lt => some .lt', '| .lt => some .le', '< is taken for <=', 'C77_single'),
('rl02', 'Lex.lean', 'pairTok', "else if a = '>' ∧ b = '=' then some (.op .ge)", "else if a = '>' ∧ b = '=' then some (.op .gt)", '>= is read as >', 'C77_single'),
('rl03', 'Cryptarithm.lean', 'Ast.run', '    if x.truth then b.run env else return x\n  | .or', '    if x.truth then return x else b.run env\n  | .or', 'the first true comparison is kept', 'C77_partial'),
('rl04', 'Lex.lean', 'Pending.flush', "else if c = '<' then some [.op .lt]", "else if c = '<' then some [.op .gt]", '< is read as >', 'C77_single'),
('rl05', 'Compile.lean', 'pChain', 'pChain f (some (match acc with | none => .cmp o a b | some c => .and c (.cmp o a b))) b r', 'pChain f (some (.cmp o a b)) b r', 'the comparisons before the last one are dropped, even if they are false', 'C77_partial: a false comparison of numbers decides'),
('rl06', 'Expr.lean', 'Cmp.swap', '| .lt => .gt | .le', '| .lt => .lt | .le', '3 < A becomes A < 3', 'C77_single'),
('rl07', 'Cryptarithm.lean', 'Ast.isBool', '    | .ok x => if x.truth then b.isBool env else a.isBool env\n    | .error _ => false\n  | .or', '    | .ok x => if x.truth then a.isBool env else b.isBool env\n    | .error _ => false\n  | .or', 'the type of the other operand', 'C77_partial, C77_type_error: 5<3<A is False, a bool'),
('rl08', 'Cryptarithm.lean', 'Obj.asArg', '  | .int n => if isBool then .bool (truthy n) else .other', '  | .int n => .bool (truthy n)', 'ints are accepted as constraints', 'C77_type_error, C77_bare_number'),
# ab01-ab07: written, not run yet.
('ab01', 'Cryptarithm.lean', 'OpTok.applyObj', '| .amp, a, b => .ok (a.and b)', '| .amp, a, b => .ok (a.or b)', '& is |', 'C78_partial'),
('ab02', 'Compile.lean', 'OpTok.level', '| .bar => some 4 | .amp => some 5', '| .bar => some 5 | .amp => some 4', '| binds more tightly than &', 'C78_partial'),
('ab03', 'Cryptarithm.lean', 'Ast.isBool', '&& a.isBool env && b.isBool env', '&& a.isBool env || b.isBool env', 'a bool and an int give a bool', 'C78_type_error'),
('ab04', 'Expr.lean', 'Expr.pyOr', '  | s, o => .expr (.bin .or s (coerce o))', '  | s, _ => .expr s', 'the second condition of a | is dropped', 'C78_partial, C01'),
('ab05', 'Expr.lean', 'Obj.and', '  | .int a, .expr e => .expr (.bin .and (coerce (.int a)) e)', '  | .int _, .expr e => .expr e', 'False & expression is the expression', 'C78_partial, C01'),
('ab06', 'Lex.lean', 'charTok', "else if c = '&' then some (.op .amp) else if c = '|' then some (.op .bar)", "else if c = '&' then some (.op .amp) else if c = '|' then some (.op .amp)", '| is read as &', 'C78_partial'),
('ab07', 'Cryptarithm.lean', 'Ast.isBool', '(decide (o = .amp) || decide (o = .bar)) &&', '(decide (o = .amp)) &&', 'a | of two bools is an int: TypeError for (1==1)|(2==3)', 'C78_no_letters'),
('bk01', 'Lex.lean', 'Pending.flush', "else if c = '<' then some [.op .lt] else if c = '>' then some [.op .gt] else none", "else if c = '<' then some [.op .lt] else if c = '>' then some [.op .gt] else if c = '=' then some [.op .eq] else none", 'a single = is read as ==', 'C79_rejected'),
('bk02', 'Compile.lean', 'parseBody', '  | some (a, []) => some a\n  | _ => none', '  | some (a, _) => some a\n  | _ => none', 'what follows the expression is ignored', 'C79_rejected'),
('bk03', 'Compile.lean', 'pE', '      | .lpar :: r => match pE f 0 r with\n        | some (a, .rpar :: r\') => some (a, r\')\n        | _ => none', '      | .lpar :: r => match pE f 0 r with\n        | some (a, .rpar :: r\') => some (a, r\')\n        | some (a, []) => some (a, [])\n        | _ => none', 'a bracket need not be closed at the end', 'C79_rejected'),
('bk04', 'Compile.lean', 'pLoop', '      | some (b, r\') => pLoop f lvl (mkBin o a b) r\'\n      | none => none', '      | some (b, r\') => pLoop f lvl (mkBin o a b) r\'\n      | none => some (a, r)', 'an operator without right operand is skipped', 'C79_rejected'),
('bk05', 'Cryptarithm.lean', 'pyEvalArg', '    | none => .error .syntaxError\n    | some a => do return', '    | none => .error .typeError\n    | some a => do return', 'another exception for tokens that cannot be parsed', 'C79_rejected'),
('cp01', 'Constraint.lean', 'Constraint.isCompiled', '  | .expr _ => (h.fns c.id).isSome\n  | _ => false', '  | .expr _ => (h.fns c.id).isSome\n  | _ => true', 'constant and all-different constraints count as compiled', 'C80'),
('cp02', 'Constraint.lean', 'Constraint.compile', 'fns := fun i => if i = c.id then some (asFunction h.params e) else h.fns i', 'fns := fun i => if i = c.id then some (asFunction h.params e) else none', 'compiling a constraint forgets the functions of the others', 'C80'),
('cp03', 'Constraint.lean', 'Constraint.compile', 'fns := fun i => if i = c.id then some (asFunction h.params e) else h.fns i', 'fns := fun i => if i = c.id then (if (h.fns i).isSome then none else some (asFunction h.params e)) else h.fns i', 'compiling twice undoes it', 'C80'),
('cp04', 'Constraint.lean', 'Constraint.evaluate', '    | some f => f.call σ', '    | some _ => (asFunction h.params e).call σ', 'a compiled constraint uses the present parameter values', 'C80'),
('cp05', 'Constraint.lean', 'Heap.setParam', '{ h with params := fun j => if j = i then v else h.params j }', '{ h with params := fun j => if j = i then v else h.params j, fns := fun _ => none }', 'assigning to a parameter drops the compiled functions', 'C80'),
]
MUTANTS = [dict(zip(('id', 'file', 'definition', 'old', 'new', 'edit', 'breaks'), m)) for m in _M if m[5]]

# Theorems added or strengthened because of the attempt.
TIGHTENED = {'cp01': ['C80_is_compiled, C80_others (added: an automatic mutant with this edit survived before)'],
             'ke01': ['C34_errors (added: before, only whether something is raised was specified)'], 'ke02': ['C34_errors (added)'], 'ke03': ['C34_errors (added)'], 'ke04': ['C34_errors (added)'],
             'mq01': ['C72_variable (added: before, only that something is raised was specified)'], 'mq02': ['C72_no_key (added)'], 'mq04': ['C72_parameter (added)'],
             'tm01': ['C69_timer (added: in the search, abort() is only called when the timer has stopped)'], 'sk01': ['C35_errors (added: before, only whether something is raised was specified)'], 'sk02': ['C35_errors (added)'],
             'bo15': ['C55_queens (ChessPicture now gives every character of the frame)'], 'bo16': ['C55_sudoku (GridPicture now gives every character of the frame)'],
             'bo17': ['C55_queens (as for bo15)'], 'bo18': ['C55_sudoku (as for bo16)'],
             'bt01': ['C01_bits (added: before, & and | between numbers were specified for 0 and 1 only)'], 'bt02': ['C01_bits (added)'],
             'sn01': ['C59_isolated, C59_solutions, C60_partial (the settings of a call are now specified by AsCalled instead of the model function effective)'],
             'de03': ['C46_optimization_text (added: before, only one text was computed)'],
             'se12': ['C52_timely (added: a bound on the time spent after the timeout; before, only a refutation and an example failed)'],
             'ti04': ['C21_spent (added: C21_genuine spoke of the time of the model\'s own timer)']}
