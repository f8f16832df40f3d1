{"id": "C01", "title": "Operators on expressions mean what they say", "statement": "If expressions (or ints) a and b evaluate to x and y under a substitution, then the object built by a+b, a-b, a*b, a/b, a%b, a**b, a==b, a!=b, a<b, a<=b, a>b, a>=b, a&b, a|b, -a, abs(a) evaluates to x+y, x-y, x*y, x//y, x%y, x**y, the comparison, 'x and y', 'x or y', -x, abs(x), whichever constant folding, neutral/absorbing-element shortcut or Sum/Prod flattening was applied while building it.", "quantifier": "all expression trees of any size, all int operands, all substitutions, all parameter values", "why_tests_cant": "the shape of the tree produced depends on the shape of both operands; there are unboundedly many trees", "anchors": ["src/satisfy/expression.py:Expression.__add__.._ror__", "src/satisfy/expression.py:Const", "src/satisfy/expression.py:_make_accumulate", "src/satisfy/expression.py:Accumulation.__init__"]}
{"id": "C02", "title": "Dividing a number by an expression", "statement": "For a number n and an expression e, n / e builds an expression that evaluates to n // value(e); likewise e // n builds a quotient.", "quantifier": "all ints n, all expressions e", "why_tests_cant": "the failing path is independent of the values; only a statement over all operands shows that no input works", "anchors": ["src/satisfy/expression.py:Expression.__rtruediv__", "src/satisfy/expression.py:Expression.__rdiv__", "src/satisfy/expression.py:Expression.__truediv__"]}
{"id": "C03", "title": "vars() is the exact support of an expression", "statement": "e.vars() lists each variable name once; evaluating e looks at no other substitution entry; evaluation can complain about an undefined variable only if a name in e.vars() is missing from the substitution; the variables of a combined expression are among those of its operands.", "quantifier": "all expressions, all pairs of substitutions agreeing on e.vars()", "why_tests_cant": "quantifies over all trees and all substitutions", "anchors": ["src/satisfy/expression.py:Collection.__init__", "src/satisfy/expression.py:Collection.vars", "src/satisfy/expression.py:Variable.evaluate", "src/satisfy/expression.py:Expression.vars"]}
{"id": "C04", "title": "Parameters are values, not unknowns", "statement": "A Parameter never appears in vars(), a substitution entry that happens to carry its name does not influence evaluation, and assigning its .value is reflected by the very next evaluate() of every expression that contains it.", "quantifier": "all expressions containing parameters, all substitutions, all histories of .value assignments", "why_tests_cant": "aliasing property over histories of assignments", "anchors": ["src/satisfy/expression.py:Parameter"]}
{"id": "C05", "title": "The compiled function of an expression computes the same value as evaluate()", "statement": "For every expression e, the function obtained from compile_py_function()/as_function() returns, on every substitution on which e.evaluate succeeds, the same value.", "quantifier": "all expressions, all substitutions, all parameter values", "why_tests_cant": "depends on how the generated source text parses (operator precedence), for every tree shape", "anchors": ["src/satisfy/expression.py:Expression.py_source", "src/satisfy/expression.py:BinOp.py_expr", "src/satisfy/expression.py:Or.py_expr", "src/satisfy/expression.py:Neg.py_expr", "src/satisfy/expression.py:Abs.py_expr", "src/satisfy/expression.py:Not.py_expr", "src/satisfy/expression.py:Accumulation._as_str"]}
{"id": "C06", "title": "Expressions built by arithmetic and comparison operators compile faithfully", "statement": "Every expression built from ints, variables and parameters with +, -, *, /, %, comparisons and & (no unary minus, abs, ** or |) compiles to a function that agrees with evaluate() wherever the latter succeeds.", "quantifier": "all operator expressions over that vocabulary, all substitutions", "why_tests_cant": "closure property over all operator applications", "anchors": ["src/satisfy/expression.py:BinOp.py_expr", "src/satisfy/expression.py:_make_accumulate", "src/satisfy/expression.py:Accumulation._as_str"]}
{"id": "C07", "title": "Every accepted variable name works in compiled constraints", "statement": "If Model accepts a variable name then constraints over that variable can be evaluated by a solver with default settings.", "quantifier": "all names accepted by add_int_variable", "why_tests_cant": "the space of names is unbounded; the failing ones are Python keywords and the helper names sum/prod/abs", "anchors": ["src/satisfy/model.py:Model._check_name", "src/satisfy/expression.py:Expression.as_function", "src/satisfy/constraint.py:ExpressionConstraint.evaluate"]}
{"id": "C08", "title": "equals() is structural equality", "statement": "e1.equals(e2) is true exactly when the two expressions are structurally identical.", "quantifier": "all pairs of expressions", "why_tests_cant": "quantifies over all pairs of trees", "anchors": ["src/satisfy/expression.py:Collection.equals", "src/satisfy/expression.py:Const.equals", "src/satisfy/expression.py:Variable.equals"]}
{"id": "C09", "title": "unsatisfied() never rejects early and never changes its mind", "statement": "For a constraint, unsatisfied(s) is False while one of its variables is unbound; once all its variables are bound the verdict is that of evaluate and is the same for every extension of s.", "quantifier": "all constraints, all substitutions and all extensions of them", "why_tests_cant": "monotonicity over all chains of substitutions", "anchors": ["src/satisfy/constraint.py:Constraint.unsatisfied", "src/satisfy/constraint.py:ExpressionConstraint.evaluate"]}
{"id": "C10", "title": "AllDifferentConstraint means pairwise different", "statement": "evaluate is true exactly when any two different names of the constraint are bound to different values; naming a variable twice counts once; a missing variable raises KeyError.", "quantifier": "all finite lists of names and all substitutions", "why_tests_cant": "unbounded lists", "anchors": ["src/satisfy/constraint.py:AllDifferentConstraint.evaluate", "src/satisfy/constraint.py:Constraint.__init__"]}
{"id": "C11", "title": "Model names are unique and nothing is ever overwritten", "statement": "After any history of add_int_variable / add_bool_variable / add_parameter / add_constraint calls (named or auto-named, succeeding or raising), all names in model.variables() are distinct, earlier entries keep their position, kind and domain, domains are duplicate-free, and a call that raises leaves the model as it was.", "quantifier": "all histories of model-building calls", "why_tests_cant": "auto-generated names could collide only after particular histories", "anchors": ["src/satisfy/model.py:Model._get_variable", "src/satisfy/model.py:Model._get_parameter", "src/satisfy/model.py:Model.add_int_variable", "src/satisfy/model.py:Model.add_constraint"]}
{"id": "C12", "title": "solvable() reports exactly the variable-free false constraints", "statement": "After any history of calls, model.solvable() is False iff some accepted constraint had no variables and evaluated to false when added; it never becomes True again; while it is True every stored constraint mentions at least one variable and only defined names.", "quantifier": "all histories of model-building calls", "why_tests_cant": "history property", "anchors": ["src/satisfy/model.py:Model.add_constraint", "src/satisfy/model.py:Model.solvable"]}
{"id": "C13", "title": "set_solvable controls solvability", "statement": "After model.set_solvable(b), model.solvable() == b.", "quantifier": "all models, all booleans", "why_tests_cant": "ranges over all models", "anchors": ["src/satisfy/model.py:Model.set_solvable"]}
{"id": "C14", "title": "Every solution produced satisfies the model", "statement": "Each substitution produced by Solver.solve binds exactly the model's variables, each to a value of its domain, and makes every constraint of the model (and every additional constraint over model variables) true - also when the iteration is later cut by limit, timeout or an exception.", "quantifier": "all models, policies, limits, timeouts, clock behaviours, and every point of the iteration", "why_tests_cant": "unbounded models and all interleavings of search and interruption", "anchors": ["src/satisfy/solver.py:Solver.solve", "src/satisfy/solver.py:Solver._setup"]}
{"id": "C15", "title": "No solution is missed", "statement": "If iteration of Solver.solve ends without interruption or exception (and the model has at least one variable), every assignment from the domains satisfying all constraints has been produced.", "quantifier": "all models, all policies, all assignments", "why_tests_cant": "completeness over an exponential space of assignments", "anchors": ["src/satisfy/solver.py:Solver.solve", "src/satisfy/solver.py:Solver._setup"]}
{"id": "C16", "title": "No solution is produced twice", "statement": "The substitutions produced by one Solver.solve iteration are pairwise different assignments.", "quantifier": "all models, all policies", "why_tests_cant": "ranges over all models", "anchors": ["src/satisfy/solver.py:Solver.solve"]}
{"id": "C17", "title": "The search always terminates", "statement": "Without a timeout, the iteration of Solver.solve ends (normally or with an exception of a constraint) after finitely many steps, for every model and variable selection policy.", "quantifier": "all models, all policies", "why_tests_cant": "non-termination cannot be observed by a test", "anchors": ["src/satisfy/solver.py:Solver.solve"]}
{"id": "C18", "title": "The variable selection policy does not change the set of solutions", "statement": "For any two policies (including RANDOM with any shuffle), complete iterations produce the same assignments up to order.", "quantifier": "all models, all pairs of policies, all shuffles", "why_tests_cant": "all permutations of all models", "anchors": ["src/satisfy/solver.py:Solver.solve", "src/satisfy/solver.py:VarSelectionPolicy"]}
{"id": "C19", "title": "Solutions come in lexicographic order", "statement": "With the ORDERED policy, solutions are produced in lexicographic order of the declared variables, values compared by their position in the declared domain.", "quantifier": "all models", "why_tests_cant": "order over unboundedly many outputs", "anchors": ["src/satisfy/solver.py:Solver.solve"]}
{"id": "C20", "title": "limit cuts the enumeration to a prefix of exactly that length", "statement": "With limit=n>=1 the solver produces the first min(n, total) solutions of the unlimited run and stops; get_stats().interrupt is 'limit' iff n solutions were produced and iteration was resumed. limit<=0 behaves as 1.", "quantifier": "all models, all limits", "why_tests_cant": "all models and limits", "anchors": ["src/satisfy/solver.py:Solver.solve", "src/satisfy/solver.py:Solver.limit"]}
{"id": "C21", "title": "A timeout only ever shortens the enumeration", "statement": "For every sequence of clock readings, the solutions produced under a timeout are a prefix of the solutions produced without it, and if it is not complete get_stats().interrupt is 'timeout'.", "quantifier": "all models, all timeouts, all clock behaviours", "why_tests_cant": "the clock schedule is nondeterministic", "anchors": ["src/satisfy/solver.py:Solver.solve", "src/satisfy/utils.py:Timer"]}
{"id": "C22", "title": "Timer and statistics are consistent", "statement": "During any solve the timer protocol is never violated (no 'already started'/'not started' error); get_stats().count is the number of solutions produced so far; accumulated elapsed time is the sum of the search segments and excludes the time spent by the consumer.", "quantifier": "all models, clock behaviours, all consumption histories", "why_tests_cant": "all schedules", "anchors": ["src/satisfy/utils.py:Timer", "src/satisfy/solver.py:Solver.get_stats", "src/satisfy/solver.py:Solver.solve"]}
{"id": "C23", "title": "Solving does not change the problem", "statement": "Solver.solve leaves the model's variables, domains, constraints and parameter values unchanged; solving again with the same deterministic policy produces the same sequence.", "quantifier": "all models, all repetitions", "why_tests_cant": "history property", "anchors": ["src/satisfy/solver.py:Solver._setup", "src/satisfy/solver.py:Solver.solve"]}
{"id": "C24", "title": "additional_constraints are enforced", "statement": "Every constraint passed through additional_constraints is true of every solution produced.", "quantifier": "all models, all constraints passed", "why_tests_cant": "ranges over all constraints", "anchors": ["src/satisfy/solver.py:Solver._setup", "src/satisfy/solver.py:Solver.solve"]}
{"id": "C25", "title": "compile_constraints is only an optimisation", "statement": "Solving with compile_constraints=True and =False produces the same sequence of solutions.", "quantifier": "all models", "why_tests_cant": "depends on all constraint shapes", "anchors": ["src/satisfy/solver.py:Solver.compile_constraints", "src/satisfy/constraint.py:ExpressionConstraint.compile"]}
{"id": "C26", "title": "A new parameter value is honoured by the next solve", "statement": "After assigning a new value to a model parameter, the next Solver.solve uses the new value in every constraint, whatever solves were run before.", "quantifier": "all histories of solves and parameter assignments", "why_tests_cant": "cache staleness shows up only after particular histories", "anchors": ["src/satisfy/constraint.py:ExpressionConstraint.compile", "src/satisfy/constraint.py:ExpressionConstraint.evaluate", "src/satisfy/expression.py:Parameter", "src/satisfy/solver.py:Solver._setup", "src/satisfy/model.py:Model.add_constraint"]}
{"id": "C27", "title": "Interleaved iterations do not disturb each other", "statement": "Two solve iterations on the same model and Solver, advanced in any interleaving, each produce the sequence they would produce alone.", "quantifier": "all models, all interleavings", "why_tests_cant": "all schedules", "anchors": ["src/satisfy/solver.py:Solver.solve", "src/satisfy/solver.py:Solver._reset"]}
{"id": "C28", "title": "optimize only produces solutions of the model", "statement": "Every solution produced by optimize satisfies the model, they are pairwise different, and the iteration terminates.", "quantifier": "all models, objectives, policies", "why_tests_cant": "ranges over all models", "anchors": ["src/satisfy/solver.py:Solver.optimize", "src/satisfy/objective.py:MinMaxConstraint"]}
{"id": "C29", "title": "optimal_solution finds a solution whenever there is one", "statement": "If not interrupted, optimal_solution returns solution=None exactly when the model has no solution, and is_optimal is False whenever the search was interrupted or found nothing.", "quantifier": "all models, all objectives", "why_tests_cant": "completeness", "anchors": ["src/satisfy/solver.py:Solver.optimal_solution", "src/satisfy/solver.py:Solver.optimize"]}
{"id": "C30", "title": "is_optimal means optimal", "statement": "If optimal_solution(model, Minimize(f)/Maximize(f)) returns is_optimal=True then no solution of the model has a smaller/larger value of f than the returned one.", "quantifier": "all models, all objectives, all policies", "why_tests_cant": "optimality is a statement about all solutions of all models", "anchors": ["src/satisfy/solver.py:Solver.optimize", "src/satisfy/solver.py:Solver.optimal_solution", "src/satisfy/objective.py:MinMaxConstraint.set_bound", "src/satisfy/solver.py:Solver._setup"]}
{"id": "C31", "title": "Optimising leaves the solution set unchanged", "statement": "After any number of optimize/optimal_solution calls the model has the same variables with domains and the same constraints, and solve produces the same solutions; the bookkeeping parameters added have fresh names.", "quantifier": "all models, all histories of optimisations", "why_tests_cant": "history property", "anchors": ["src/satisfy/objective.py:MinMaxConstraint.__init__", "src/satisfy/solver.py:Solver.optimize", "src/satisfy/model.py:Model.add_parameter"]}
{"id": "C32", "title": "Knapsack result is feasible and consistent", "statement": "If KnapsackOptimizer returns a solution it is a 0/1 vector with one entry per item, value is the total value and weights the total weights of the selected items, and every total weight respects its capacity.", "quantifier": "all knapsack instances", "why_tests_cant": "all instances", "anchors": ["src/satisfy/knapsack.py:KnapsackOptimizer"]}
{"id": "C33", "title": "Knapsack result is optimal", "statement": "If KnapsackOptimizer reports is_optimal=True then no feasible selection has a larger total value.", "quantifier": "all knapsack instances (including zero and negative values)", "why_tests_cant": "optimality over all selections", "anchors": ["src/satisfy/knapsack.py:KnapsackOptimizer"]}
{"id": "C34", "title": "Knapsack rejects malformed input and enforces every accepted weight", "statement": "Construction raises unless there are as many weight rows as values and each row has one entry per capacity; if it is accepted, the capacities are enforced, also when weights is a one-shot iterable.", "quantifier": "all inputs", "why_tests_cant": "all inputs", "anchors": ["src/satisfy/knapsack.py:KnapsackOptimizer.__init__"]}
{"id": "C35", "title": "Sudoku solutions are valid completions, and all of them", "statement": "For a 9x9 schema, SudokuSolver produces exactly the grids that extend the schema and have 1..9 once in each row, column and block, each once (up to the limit).", "quantifier": "all 9x9 schemas with entries 0..9/None", "why_tests_cant": "6.7e21 grids", "anchors": ["src/satisfy/sudoku.py:SudokuSolver"]}
{"id": "C36", "title": "Queens solutions are the non-attacking placements", "statement": "QueensSolver(n) produces exactly the n x n boards with one queen per row, column and no two on a diagonal, each once.", "quantifier": "all board sizes n", "why_tests_cant": "all n", "anchors": ["src/satisfy/tool/queens.py:QueensSolver"]}
{"id": "C37", "title": "Graph labelings are proper and complete", "statement": "GraphLabelingSolver produces exactly the assignments of labels to nodes giving different labels to the ends of each edge, each once.", "quantifier": "all graphs, all label lists", "why_tests_cant": "all graphs", "anchors": ["src/satisfy/graph_labeling.py:GraphLabelingSolver"]}
{"id": "C38", "title": "Nonogram solutions are the pixmaps with the given clues", "statement": "NonogramSolver produces exactly the 0/1 pixmaps whose row and column runs are the given clues, each once.", "quantifier": "all clue lists, all sizes", "why_tests_cant": "all sizes", "anchors": ["src/satisfy/nonogram.py:NonogramSolver"]}
{"id": "C39", "title": "pixmap_to_nonogram computes the run lengths", "statement": "The clue of each row/column is the list of lengths of its maximal runs of filled cells in order.", "quantifier": "all rectangular pixmaps", "why_tests_cant": "all sizes", "anchors": ["src/satisfy/nonogram.py:pixmap_to_nonogram"]}
{"id": "C40", "title": "A picture can be recovered from its clues", "statement": "For every rectangular 0/1 pixmap, NonogramSolver(pixmap_to_nonogram(p)) produces p among its solutions.", "quantifier": "all pixmaps", "why_tests_cant": "round trip over all inputs", "anchors": ["src/satisfy/nonogram.py:NonogramSolver", "src/satisfy/nonogram.py:pixmap_to_nonogram"]}
{"id": "C41", "title": "Cryptarithm solutions are correct digit assignments", "statement": "For a cryptarithm 'expression == expression' over words, CryptarithmSolver's solutions assign different digits to different letters, no word starts with 0 when avoid_leading_zeros is set (and only then is that required), and substituting the digits makes the equation true; all such assignments are produced.", "quantifier": "all sources made of words, +,-,* and one ==", "why_tests_cant": "all sources", "anchors": ["src/satisfy/cryptarithm.py:CryptarithmSolver"]}
{"id": "C42", "title": "Map colouring separates adjacent regions", "statement": "In every map produced by AsciiMapColoringSolver, 8-adjacent cells with the same letter have the same colour and 8-adjacent cells with different letters have different colours; blank cells stay blank.", "quantifier": "all ascii maps, all lists of distinct colours", "why_tests_cant": "flood fill over all maps", "anchors": ["src/satisfy/tool/ascii_map_coloring.py:AsciiMapColoringSolver"]}
{"id": "C43", "title": "Einstein riddle solution satisfies the fifteen statements", "statement": "Every assignment produced by EinsteinRiddleSolver satisfies all fifteen statements with a bijection between houses and each attribute, whatever the policy.", "quantifier": "all policies/shuffles and search orders", "why_tests_cant": "all schedules of the search", "anchors": ["src/satisfy/tool/einstein_riddle.py:EinsteinRiddleSolver"]}
{"id": "C44", "title": "Image and pixmap conversions are inverse", "statement": "image_to_pixmap(pixmap_to_image(p)) == p for every rectangular 0/1 pixmap with at least one row, and pixmap_to_image always yields equally long lines.", "quantifier": "all pixmaps", "why_tests_cant": "round trip over all inputs", "anchors": ["src/satisfy/tool/demo_nonogram.py:image_to_pixmap", "src/satisfy/tool/demo_nonogram.py:pixmap_to_image"]}
{"id": "C45", "title": "Every variable selection policy binds variables in its order", "statement": "The variables are bound in the order of the policy: ORDERED and REVERSED in (reverse) order of declaration, RANDOM in the shuffled order, MIN_BOUND/MAX_BOUND by size of the declared domain, MIN_CONSTRAINT/MAX_CONSTRAINT by number of constraints with another variable (all-different ones not counted), GROUPS by first all-different constraint, then by constraint weight, then by domain size; ties keep the order of declaration (for GROUPS its reverse). Solutions come in lexicographic order with regard to that order.", "quantifier": "all models, additional constraints, policies, shuffles and numbers of steps", "why_tests_cant": "sortedness, stability and lexicographic order over arbitrary models", "anchors": ["src/satisfy/solver.py:VarSelectionPolicy", "src/satisfy/solver.py:Solver._setup", "src/satisfy/solver.py:Solver.solve"]}
{"id": "C46", "title": "The statistics message of the demos is truthful", "statement": "After an iteration of a model with at least one variable has ended, print_solve_stats(get_stats()) says 'Found unique solution' only if there is exactly one solution, 'Found all n solutions' only if there are exactly n, and otherwise 'Found k partial solutions [limit/timeout reached]' where k solutions were produced and that limit or timeout was set and reached.", "quantifier": "all models, solver settings, clocks", "why_tests_cant": "relates the printed text to the set of all solutions of arbitrary models", "anchors": ["src/satisfy/tool/demo_utils.py:print_solve_stats", "src/satisfy/solver.py:Solver.get_stats"]}
{"id": "C47", "title": "The equation printed for a cryptarithm solution is true", "statement": "print_cryptarithm_solution(solution, source) prints the letters in alphabetical order with their digits, and then the source with all letters replaced by their digits, which is a true equation, for every solution of CryptarithmSolver(source).", "quantifier": "all sources of the form expression == expression, all solutions", "why_tests_cant": "all equations and all their solutions", "anchors": ["src/satisfy/tool/demo_cryptarithm.py:print_cryptarithm_solution", "src/satisfy/cryptarithm.py:CryptarithmSolver"]}
{"id": "C48", "title": "get_stats describes the iteration started last", "statement": "While any number of solve iterations of one Solver are in progress, Solver.get_stats() reports the count, the elapsed time and the interrupt of the iteration that was started last, as if it ran alone.", "quantifier": "all models, all settings, all interleavings", "why_tests_cant": "all schedules of iterations sharing the attributes of the Solver", "anchors": ["src/satisfy/solver.py:Solver._reset", "src/satisfy/solver.py:Solver.solve", "src/satisfy/solver.py:Solver.get_stats"]}
{"id": "C49", "title": "Using a model again gives the same result", "statement": "Calling solve, optimize, optimal_solution or a KnapsackOptimizer again gives the same result, whatever solving and optimising was done with the same model before, if constraints are compiled in all the calls or in none.", "quantifier": "all models, objectives, settings, all histories of solve and optimize calls (also broken off)", "why_tests_cant": "each optimisation adds parameters and compiled functions; all histories", "anchors": ["src/satisfy/solver.py:Solver.optimize", "src/satisfy/solver.py:Solver.optimal_solution", "src/satisfy/objective.py:MinMaxConstraint", "src/satisfy/knapsack.py:KnapsackOptimizer.__call__"]}
{"id": "C50", "title": "Early pruning", "statement": "At every moment of an iteration, each partial assignment on the stack binds the first variables in the order of the selection policy to values of their domains, satisfies every constraint whose variables are all bound, and gives no two bound variables of an all-different constraint the same value. Each entry extends the ones below it; the stack is never higher than the number of variables.", "quantifier": "all models, solvers and policies, clocks, limits, timeouts, additional constraints, every step of every iteration", "why_tests_cant": "the stack is a local variable of a generator; a solver that checks constraints only at the end yields the same solutions", "anchors": ["src/satisfy/solver.py:Solver.solve"]}
{"id": "C51", "title": "Exact cost of the search", "statement": "An iteration that ends by itself makes two steps for each consistent partial assignment (domains, fully bound constraints and all-different constraints respected) to the first variables in the order of the policy, and two more; no partial assignment is visited twice. With limits, timeouts or exceptions it makes at most that many. A step is a pass through the loop or a resumption after a solution.", "quantifier": "all models, solvers and policies, clocks, limits, timeouts", "why_tests_cant": "wasted work does not change the results; exact counting for all models", "anchors": ["src/satisfy/solver.py:Solver.solve"]}
{"id": "C52", "title": "The timeout is noticed in time", "statement": "With a timeout t, if the clock never goes back and no pass of the search loop takes longer than d, the search has control for at most max(t, 0) + 2 d in total, not counting the time the consumer takes between two solutions.", "quantifier": "all models, solvers, timeouts, clocks, consumers, every point of every iteration", "why_tests_cant": "the clock schedule is nondeterministic; all models", "anchors": ["src/satisfy/solver.py:Solver.solve", "src/satisfy/utils.py:Timer.elapsed"]}
{"id": "C53", "title": "Several objectives: the result is not dominated", "statement": "With several objectives, a result that says it is optimal is not dominated: no other solution of the model is at least as good in every objective and better in one; and of the solutions produced on the way each is at least as good as all earlier ones in every objective.", "quantifier": "all models, all lists of objectives over two or more variables that never get worse along a domain, all solvers, limits and clocks; all solutions", "why_tests_cant": "quantifies over all models, objective lists and solutions; pruning depends on the interleaving of bounds and search", "anchors": ["src/satisfy/solver.py:Solver.optimize", "src/satisfy/solver.py:Solver.optimal_solution", "src/satisfy/objective.py:MinMaxConstraint.set_bound"]}
{"id": "C54", "title": "The text of a compiled function reads back as printed", "statement": "The text that py_source() gives to eval is split by Python's tokenizer into exactly the printed operands, operators and brackets, and is read as a function of the variables of the expression whose body is the printed expression; it is a syntax error (and as_function falls back) exactly if a variable's name cannot be a parameter or the body is none.", "quantifier": "all expressions of any shape and depth, all values of parameters, all variable names that a model accepts or makes up, all parameter names that are identifiers", "why_tests_cant": "quantifies over all expression trees, ints and names", "anchors": ["src/satisfy/expression.py:Expression.py_source", "src/satisfy/expression.py:Expression.compile_py_function", "src/satisfy/expression.py:Expression.as_function", "src/satisfy/expression.py:Accumulation._as_str", "src/satisfy/model.py:Model._get_variable"]}
{"id": "C55", "title": "Printed boards show what the solution is", "statement": "The picture printed for a Sudoku has, inside the frame, exactly the digits of the grid and a dot for every blank, nine by nine; the picture printed for a queens board has a queen exactly on the occupied fields; different boards have different pictures; the knapsack text has an X exactly for the items taken; every solution of the riddle is printed as five true sentences with exactly one mark, at the zebra.", "quantifier": "all board sizes, all boards, all Sudoku grids with nine rows of nine digits or blanks, all knapsack solutions, all solutions of the riddle", "why_tests_cant": "quantifies over all boards and sizes; tests can only compare a few pictures", "anchors": ["src/satisfy/tool/demo_sudoku.py:print_sudoku_schema", "src/satisfy/tool/demo_queens.py:print_queens_board", "src/satisfy/tool/demo_knapsack.py:solution_string", "src/satisfy/tool/demo_einstein_riddle.py:print_einstein_riddle_solution"]}
{"id": "C56", "title": "The transcript of a demo is a true report", "statement": "At any moment a demo has printed right solutions, numbered 1, 2, …, none twice. When it ends the last line is true: \"unique\" only if the solution shown is the only one, \"all k\" only if the k solutions shown are all there are, \"k partial … [reason reached]\" only if k were shown and the limit or timeout was the reason. Without limit and timeout the queens, Sudoku, nonogram and riddle demos list all solutions; the Sudoku demo without a limit on the command line shows one solution and calls it partial, also if it is the only one.", "quantifier": "all puzzles whose solver is right, all printing functions, all solver settings and clocks, every number of steps; all board sizes, grids and clues for the four demos", "why_tests_cant": "quantifies over puzzles, settings, clocks and moments of interruption", "anchors": ["src/satisfy/tool/demo_sudoku.py:sudoku", "src/satisfy/tool/demo_queens.py:queens", "src/satisfy/tool/demo_nonogram.py:nonogram", "src/satisfy/tool/demo_einstein_riddle.py:einstein", "src/satisfy/tool/demo_utils.py:print_solve_stats", "src/satisfy/sudoku.py:SudokuSolver.__init__"]}
{"id": "C57", "title": "INFINITY means no bound", "statement": "timeout and limit given as None or INFINITY mean no bound, given as a number that bound, in the constructor, by assignment and as an argument of solve(); an argument of solve() wins over the setting of the solver.", "quantifier": "all models, solvers, settings, arguments, clocks, consumers, every number of steps", "why_tests_cant": "quantifies over all models and combinations of settings and arguments", "anchors": ["src/satisfy/solver.py:Solver.solve", "src/satisfy/solver.py:Solver.timeout", "src/satisfy/solver.py:Solver.limit", "src/satisfy/utils.py:Infinity"]}
{"id": "C58", "title": "The search with forbidden values finds the same", "statement": "_solve_forbidden, the version of the search that keeps for each variable the values taken by its all-different neighbours, hands out the same solutions as solve, in the same order.", "quantifier": "all models, additional constraints, solver settings, clocks, leftover interrupts, every number of steps", "why_tests_cant": "quantifies over all models and all moments of interruption; it is an equivalence of two algorithms", "anchors": ["src/satisfy/solver.py:Solver._solve_forbidden", "src/satisfy/solver.py:Solver.solve"]}
{"id": "C59", "title": "A running iteration is isolated", "statement": "An iteration of solve() works on the model, the settings of the solver and the arguments as they are when its first solution is asked for. Whatever the program does then - adding variables, parameters and constraints to this or other models, changing settings, starting and advancing other iterations - it hands out the solutions it would hand out alone: solutions of the model as it was, none twice, all of them if it ends without interrupt.", "quantifier": "all programs over any number of models, solvers, shared constraint objects and iterations, all interleavings", "why_tests_cant": "quantifies over all programs and interleavings", "anchors": ["src/satisfy/solver.py:Solver.solve", "src/satisfy/solver.py:Solver._setup", "src/satisfy/model.py:Model"]}
{"id": "C60", "title": "A running iteration keeps its parameter values", "statement": "An iteration of solve() of a solver that compiles constraints uses the parameter values of its start; assigning to a parameter takes effect for the iterations started later only.", "quantifier": "all programs over any number of models, solvers, shared constraint objects and iterations, all interleavings", "why_tests_cant": "quantifies over all programs and interleavings", "anchors": ["src/satisfy/solver.py:Solver._setup", "src/satisfy/constraint.py:ExpressionConstraint.compile", "src/satisfy/expression.py:Parameter"]}
{"id": "C61", "title": "The report of the knapsack demo is right", "statement": "The knapsack demo ends. If it shows a solution, it is a feasible selection with its value and its weights; it says that no solution was found only if there is none or the search was interrupted; it calls a solution optimal exactly if it is a best one, and says that a limit was reached only if it was.", "quantifier": "all values, capacities and weights of matching shape, all solver settings and clocks", "why_tests_cant": "quantifies over all instances and settings", "anchors": ["src/satisfy/tool/demo_knapsack.py:knapsack", "src/satisfy/tool/demo_utils.py:print_optimization_stats", "src/satisfy/knapsack.py:KnapsackOptimizer"]}
{"id": "C62", "title": "The options of the command line mean what they say", "statement": "-z accepts exactly on, true, off, false in any case and integers (0 is off, others are on), and is on if given without a value or not at all. -l accepts exactly the integers, and is no limit without a value. The input file of a demo is read if one is given, the default data otherwise.", "quantifier": "all ASCII texts given as arguments, all files", "why_tests_cant": "quantifies over all texts", "anchors": ["src/satisfy/tool/__init__.py:type_on_off", "src/satisfy/tool/__init__.py:main", "src/satisfy/tool/demo_ascii_map_coloring.py:ascii_map_coloring"]}
{"id": "C63", "title": "The listing of a model tells what the model is", "statement": "If print_model prints the same text for two models, they have the same variables in the same order with the same domains, and the same solutions.", "quantifier": "all pairs of models, all domains given as lists, tuples, ranges or sets, all parameter values, all assignments", "why_tests_cant": "quantifies over all pairs of models; a test can only compare listings of a few", "anchors": ["src/satisfy/tool/demo_utils.py:print_model", "src/satisfy/expression.py:_as_str", "src/satisfy/constraint.py:__str__"]}
{"id": "C64", "title": "The domain of a variable is the one it was declared with", "statement": "Whatever the program does after add_int_variable(domain), also with the object it gave as domain, solve works on the values the domain had at the declaration.", "quantifier": "all models, all later calls and changes of domain objects (also during an iteration), all settings of the solver, all numbers of steps", "why_tests_cant": "needs every interleaving of declarations, changes of shared objects and steps of the search", "anchors": ["src/satisfy/model.py:add_int_variable", "src/satisfy/solver.py:_setup", "src/satisfy/solver.py:solve"]}
{"id": "C65", "title": "A running optimisation is isolated", "statement": "An iteration of optimize() works on the model, the settings of the solver, the objectives and the arguments as they are when its first solution is asked for. Whatever the program does then - adding variables, parameters and constraints to this or other models, changing settings, starting and advancing other iterations of solve() and optimize() on the same model and solver - it hands out the solutions it would hand out alone, as long as nobody assigns to the parameters in its constraints and objectives or to those it has made itself: solutions of the model as it was, none twice, at least one if there is one and it ends without interrupt.", "quantifier": "all programs over any number of models, solvers, shared constraint objects and iterations, all interleavings", "why_tests_cant": "quantifies over all programs and interleavings", "anchors": ["src/satisfy/solver.py:Solver.optimize", "src/satisfy/objective.py:MinMaxConstraint", "src/satisfy/model.py:Model.add_parameter"]}
{"id": "C66", "title": "optimize hands out an optimum", "statement": "If optimize() runs to its end without interrupt, it leaves out a solution of the model only if it has handed out one that is at least as good in some objective. So with one objective the solutions handed out include an optimal one, whatever the objective is; and every solution better than the one optimal_solution() returns was handed out before it and differs in only one variable of the objective from a solution handed out that is not better than the one returned.", "quantifier": "all models, additional constraints, objectives, domains (in any order), policies, compilation settings, all solutions of the model", "why_tests_cant": "quantifies over all models, objectives and solutions; optimal_solution itself returns wrong results (C30), so the result cannot be used as the reference", "anchors": ["src/satisfy/solver.py:Solver.optimize", "src/satisfy/solver.py:Solver.optimal_solution", "src/satisfy/objective.py:MinMaxConstraint.set_bound"]}
{"id": "C67", "title": "Solutions belong to the caller", "statement": "Every solution that solve() and optimize() hand out is a new dict, which the search never reads or writes again. Whatever the caller does with the dicts it has, between any two passes of the search, the search hands out the same solutions, with the same statistics and the same effects; and what the dicts contain is what was handed out, with the caller's own changes. list(solver.solve(model)) holds all the solutions.", "quantifier": "all models, arguments, consumers, all sequences of changes the caller makes to the dicts it has, in every step, all numbers of steps", "why_tests_cant": "quantifies over all interleavings of the search with changes made by the caller", "anchors": ["src/satisfy/solver.py:Solver.solve", "src/satisfy/solver.py:Solver.optimize"]}
{"id": "C68", "title": "A formula written in Python means what it says", "statement": "For every formula over numbers and variables with arithmetic, comparisons (also chained), &, |, and, or, not, if-else, max and min, the object which Python makes of it evaluates, under every substitution, to the value the formula has when the variables are replaced by their values. So a constraint made of it holds exactly if the formula is true.", "quantifier": "all formulas, all substitutions", "why_tests_cant": "quantifies over all formulas, nested to any depth, and all values", "anchors": ["src/satisfy/expression.py:Expression", "src/satisfy/expression.py:Collection.__len__"]}
{"id": "C69", "title": "A timer measures the time during which it was running", "statement": "After any calls of start(), stop(count=n) and abort() at any times, a Timer is running exactly if the last call was start(); elapsed() is the total time during which it was running; count() is the sum of the counts of the stop() calls made while it was running; and a call raises RuntimeError exactly if it is a start() while the timer is running or a stop() while it is not, and then changes nothing. If the clock does not go back, elapsed() never decreases and is never more than the time since the first call.", "quantifier": "all sequences of calls, all times", "why_tests_cant": "quantifies over all sequences of calls and all clock readings", "anchors": ["src/satisfy/utils.py:Timer"]}
{"id": "C70", "title": "The repr of an expression tells what it is", "statement": "The repr of an expression is the name of its class with, between brackets, its value, its quoted name, or the reprs of its operands in order (and the constant of a sum or product); that of a constraint is the name of its class with its truth value, its expression, or the sorted list of its variables. Two expressions have the same repr() exactly when they are built in the same way from the same constants and the same variable and parameter names (parameters of the same name are not told apart); so expressions of one model with the same repr are the same tree, and expressions with the same repr have the same value, or raise the same exception, under every substitution if parameters of the same name hold the same value. Two constraints have the same repr() exactly when they are of the same kind with the same truth value, with expressions that have the same repr, or with the same set of variables.", "quantifier": "all pairs of expressions and of constraints whose names contain no quote and no backslash (all names a model accepts or invents)", "why_tests_cant": "quantifies over all pairs of expression trees; a test compares finitely many texts", "anchors": ["src/satisfy/expression.py:Const.__repr__", "src/satisfy/expression.py:Collection.__repr__", "src/satisfy/expression.py:Accumulation.__repr__", "src/satisfy/expression.py:Variable.__repr__", "src/satisfy/constraint.py:ConstConstraint.__repr__", "src/satisfy/constraint.py:ExpressionConstraint.__repr__", "src/satisfy/constraint.py:AllDifferentConstraint.__repr__"]}
{"id": "C71", "title": "There is one Infinity and one Undefined", "statement": "However often and in whatever order the singleton classes are called, every call returns an object of the class called, always the same one for the same class and different ones for different classes, so 'value is INFINITY' recognises every Infinity(); repr() and str() of these objects give a text with the name of the class.", "quantifier": "all sequences of calls of the classes, all three classes", "why_tests_cant": "quantifies over all sequences of calls", "anchors": ["src/satisfy/utils.py:_Singleton", "src/satisfy/utils.py:Infinity", "src/satisfy/utils.py:Undefined"]}
{"id": "C72", "title": "Every call that builds a model is carried out or rejected as specified", "statement": "add_int_variable raises ValueError exactly if the domain has a duplicate or the given name is malformed or taken; add_parameter exactly if the name is malformed or taken; otherwise the variable or parameter is appended with the given domain or value under the given name, or under _v<n> / _p<n> for the n variables so far, and returned. add_constraint raises TypeError exactly for what is neither a bool, an expression nor a constraint, ValueError exactly if it mentions a variable the model does not have, and for a constraint without variables what evaluating it raises; such a constraint is dropped if it holds, and otherwise stored with the model marked unsolvable; every other constraint is appended. Nothing else in the model changes. get_variable and get_var_domain give back the object and domain of a declaration whatever is called afterwards, and raise KeyError for other names.", "quantifier": "all calls with all arguments, in all worlds reachable by calls", "why_tests_cant": "quantifies over all models, all arguments and all later calls", "anchors": ["src/satisfy/model.py:Model.add_int_variable", "src/satisfy/model.py:Model.add_parameter", "src/satisfy/model.py:Model.add_constraint", "src/satisfy/model.py:Model.add_all_different_constraint", "src/satisfy/model.py:Model.get_variable", "src/satisfy/model.py:Model.get_var_domain"]}
{"id": "C73", "title": "The command line calls the demo that was asked for", "statement": "A command followed by any of its options, in any order and any number of times, with short or long names and their arguments, calls the demo of that command with exactly the parameters that demo has; each parameter has the value of the last option about it, converted as declared, or the default. For the cryptarithm, an argument that stands where no option could take it is the source. No demo is called if the command is unknown, a value cannot be converted, a file cannot be opened, both inputs of a nonogram are given, or an argument is left over; without a command the help is printed.", "quantifier": "all command lines of full options with separate arguments (abbreviations, glued options and negative numbers excluded), all sets of readable files and accepted floats", "why_tests_cant": "quantifies over all sequences of options and arguments", "anchors": ["src/satisfy/tool/__init__.py:main"]}
{"id": "C74", "title": "The program, from its arguments to its output", "statement": "`satisfy queens`, `einstein`, `cryptarithm`, `sudoku`, `nonogram`, `graph_labeling` and `ascii_map_coloring`, with any of their options in any order, print in this order: what the demo says about its input (the text of the riddle, the source of the cryptarithm, the sudoku to be solved; without a file the default text); with -s the listing of the model; every solution once, numbered from 1 and drawn as the demo draws it; a last line that says \"unique\" or \"all\" only if all solutions of the puzzle have been printed, and otherwise \"partial\", with as many solutions as the limit says (1 for sudoku and map if there is none), but at least one, or after a timeout. `satisfy knapsack` prints the report of C61. A map file ends in a TypeError. The outputs for the riddle, the default nonogram and the default knapsack are determined up to the time and the number of iterations; for the default graph they are the six labellings.", "quantifier": "all command lines of full options, all board sizes above 0, all cryptarithms of the grammar, all readable input files with well formed documents or images, all clocks, orders of sets and variables", "why_tests_cant": "quantifies over all command lines, puzzles, clocks and orders; nothing is assumed about the speed of the search", "anchors": ["src/satisfy/tool/__init__.py:main", "src/satisfy/tool/demo_queens.py:queens", "src/satisfy/tool/demo_einstein_riddle.py:einstein", "src/satisfy/tool/demo_cryptarithm.py:cryptarithm", "src/satisfy/einstein_riddle.py:riddle", "src/satisfy/tool/demo_sudoku.py:sudoku", "src/satisfy/tool/demo_nonogram.py:nonogram", "src/satisfy/tool/demo_graph_labeling.py:graph_labeling", "src/satisfy/tool/demo_ascii_map_coloring.py:ascii_map_coloring", "src/satisfy/tool/demo_knapsack.py:knapsack"]}
{"id": "C75", "title": "Settings and objectives are used as given or rejected", "statement": "Whatever is given to the constructor of Solver, assigned to its properties, given as keyword argument to solve() or to ModelSolver(): it is used as given, or rejected by an exception before anything is handed out; an assignment that is rejected changes nothing, and after any history of assignments each property has the last accepted value. What is given to optimize() as objective is an Objective or a collection of them; everything else is rejected.", "quantifier": "all dicts of keyword arguments with any values, all histories of assignments, all models, all collections of objectives and other things", "why_tests_cant": "quantifies over all values (also wrong ones), all histories and all models; says that the run is the same step by step", "anchors": ["src/satisfy/solver.py:Solver.__init__", "src/satisfy/solver.py:var_selection_policy", "src/satisfy/solver.py:timeout", "src/satisfy/solver.py:limit", "src/satisfy/solver.py:compile_constraints", "src/satisfy/solver.py:solve", "src/satisfy/solver.py:optimize", "src/satisfy/solver.py:ModelSolverBase.__init__", "src/satisfy/objective.py:MinMax.__init__"]}
{"id": "C76", "title": "Programs on trivial and on wrong input", "statement": "If nothing is left to be found (a board of size 0 or less, a sudoku without blanks, clues that are all empty, a blank image, a graph without nodes, an equation without letters), the program reports the number of solutions that the puzzle has. If the input is not well formed (no JSON, missing keys, no 9x9 schema of 0 to 9 and null, wrong values or weights, no items, an equation with constant sides), it ends with an exception that depends only on the first mistake, and nothing is searched.", "quantifier": "all command lines of full options, all such inputs, all clocks, orders of sets and variables, any number of steps", "why_tests_cant": "quantifies over all command lines and all wrong documents, and says for each which exception is raised", "anchors": ["src/satisfy/solver.py:solve", "src/satisfy/sudoku.py:SudokuSolver.__init__", "src/satisfy/knapsack.py:KnapsackSolver.__init__", "src/satisfy/tool/demo_sudoku.py:print_sudoku_schema", "src/satisfy/tool/demo_sudoku.py:sudoku", "src/satisfy/tool/demo_queens.py:queens", "src/satisfy/tool/demo_nonogram.py:nonogram", "src/satisfy/tool/demo_graph_labeling.py:graph_labeling", "src/satisfy/tool/demo_cryptarithm.py:cryptarithm", "src/satisfy/tool/demo_knapsack.py:knapsack"]}
{"id": "C77", "title": "Cryptarithms with other comparisons", "statement": "A text with one or more comparisons (==, !=, <, <=, >, >=, chained as in Python) between sums and products of words is solved by exactly the assignments of different digits to its letters, without leading zeros, for which all the comparisons hold; each is produced once. A text without a comparison means that its value is not 0.", "quantifier": "all texts of the grammar (all words, brackets, blanks, lengths and comparisons of the chain), all orders of the set of letters, all solver settings, any number of steps", "why_tests_cant": "quantifies over all texts, chains of any length and all assignments of digits", "anchors": ["src/satisfy/cryptarithm.py:CryptarithmSolver.__init__", "src/satisfy/expression.py:Expression.__lt__", "src/satisfy/expression.py:Const", "src/satisfy/model.py:Model.add_constraint"]}
{"id": "C78", "title": "Cryptarithms combined with & and |", "statement": "A text that combines comparisons in brackets with & and | is solved by exactly the assignments of different digits to its letters, without leading zeros, for which the combination holds; each is produced once.", "quantifier": "all texts of the grammar (all words, comparisons, nestings of & and |, brackets and blanks), all orders of the set of letters, all solver settings, any number of steps", "why_tests_cant": "quantifies over all nestings of conditions and all assignments of digits", "anchors": ["src/satisfy/cryptarithm.py:CryptarithmSolver.__init__", "src/satisfy/expression.py:Expression.__and__", "src/satisfy/expression.py:Expression.__or__", "src/satisfy/expression.py:Or.py_expr"]}
{"id": "C79", "title": "Cryptarithms that are no expressions are rejected", "statement": "A text with a visible mistake is rejected with SyntaxError: nothing but blanks, a single =, brackets that do not match, or an operator at the start, at the end, directly after another operator, after an opening or before a closing bracket.", "quantifier": "all texts of letters, digits, blanks, brackets and operators of any length with one of the mistakes anywhere, all orders of the set of letters, any heap; for the program also all options around the text", "why_tests_cant": "quantifies over all texts of any length", "anchors": ["src/satisfy/cryptarithm.py:CryptarithmSolver.__init__", "src/satisfy/tool/demo_cryptarithm.py:cryptarithm"]}
{"id": "C80", "title": "What compile() does to a constraint", "statement": "A constraint counts as compiled exactly if it is an expression constraint and compile() was called on it. Until then it is evaluated with the present parameter values; from then on neither assignments to parameters nor compiling other constraints change any evaluation, until compile() is called again. Constant and all-different constraints are never affected.", "quantifier": "all constraints, all expressions, all histories of compile() calls and parameter assignments of any length, all substitutions", "why_tests_cant": "quantifies over all histories and all expressions", "anchors": ["src/satisfy/constraint.py:ExpressionConstraint.compile", "src/satisfy/constraint.py:ExpressionConstraint.is_compiled", "src/satisfy/constraint.py:ExpressionConstraint.evaluate", "src/satisfy/constraint.py:Constraint.is_compiled", "src/satisfy/expression.py:Parameter.value"]}
