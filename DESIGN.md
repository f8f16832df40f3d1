# A formal model of simone-campagna/satisfy in Lean 4

`lean/` holds the model and the proofs, `properties.jsonl` the properties in English, `MANIFEST.json` which theorems
prove which property, `seeded/LOG.jsonl` the mutation tests of the theorems, `tools/` the scripts that make the last two.

1. Method
2. What is modelled
3. Where the model simplifies
4. Per property: what is modelled, how it is proved
5. What was found in the code
6. Trusted base

## 1. Method

The source in `/repo` was read as text; nothing of it was run. Each Python function became a total, computable Lean function
written branch by branch after the source. Each definition cites the lines it models. Exceptions are values (`Except Err`).
Mutable objects (parameter values, compiled functions) live in a `Heap` that functions take and return. Loops that end for a
reason that is not structural take fuel, and the fuel used is proved to be enough.

Specifications are written without the model's helpers, in `Spec*.lean` and at the head of the `Props/*.lean` files: what a
solution is, what a Sudoku grid is, what runs of a row are, what the digits of a word are. Property theorems are in
`Props/*.lean`, named `Cnn_…`. Helper lemmas are in `Lemmas/*.lean`.

Names: `Cnn_refuted…` proves that the claim is **false of the code**, by a concrete witness or for a whole class of inputs.
`Cnn_partial…` is the part that holds; its comment says what is missing. For such a property the full claim is kept, either as
`def Cnn : Prop` or as the statement that is negated. Each theorem with hypotheses has beside it an `example` (or a theorem about a concrete run)
that meets them.

## 2. What is modelled

| Lean module (`lean/Verif/…`) | Python source (`/repo/src/satisfy/…`) |
|---|---|
| `Py` | the parts of CPython that are used: int arithmetic, truthiness, `and`/`or`, `**`, dicts in insertion order, stable `sorted`, identifiers |
| `Expr` | `expression.py`: trees, `evaluate`, `vars`, `free_vars`, `equals`, every operator and its reflected form with constant folding, `_make_accumulate`, `Accumulation.__init__` |
| `Compile` | `expression.py`: `__str__`, `py_expr`, `as_function`. Texts are lists of tokens (characters in `Source`); a recursive descent parser for the part of Python's expression grammar they reach (precedence, chained comparisons); evaluation of the parsed body (short circuit, name lookup, calls of `sum`, `prod`, `abs`); the fallback |
| `Lex`, `Source` | Python's tokenizer for these texts; `expression.py`: the characters of `str()`, `py_expr()`, `py_source()`, `eval` of the text as a `lambda` |
| `Constraint` | `constraint.py`: the three kinds of constraints, `evaluate`, `unsatisfied`, `free_vars`, `compile`, `is_compiled`; the heap |
| `Model` | `model.py` as state transitions: all `add_…` methods, names, `solvable`, `set_solvable`, `get_var_domain`, … |
| `Timer` | `utils.py`: `Timer`, driven by an arbitrary clock |
| `Search`, `Solver` | `solver.py`: `_setup`, the eight variable selection policies, the `while stack` loop one pass at a time, limit, timeout, statistics, per-call arguments |
| `Optimize` | `objective.py`, and `Solver.optimize`, `optimal_solution` |
| `Props/Shared` | the attributes of one `Solver` shared by several iterations, `get_stats` |
| `Build` | running programs against the model API, solver objects for puzzles (`ModelSolver`) |
| `Graph`, `Queens`, `Sudoku`, `Knapsack`, `Nonogram`, `Einstein` | `graph_labeling.py`, `tool/queens.py`, `sudoku.py`, `knapsack.py`, `nonogram.py`, `tool/einstein_riddle.py` |
| `Image` | `tool/demo_nonogram.py`: the conversions between images and pixmaps |
| `MapColoring` | `tool/ascii_map_coloring.py`: reading the map, the flood fill, the graph, colouring |
| `Cryptarithm` | `cryptarithm.py`: tokenising, the digits of words, the text handed to `eval`, and its parser |
| `Demo` | `tool/demo_utils.py` and `tool/demo_cryptarithm.py`: the texts of `print_solve_stats`, `print_optimization_stats`, `print_cryptarithm_solution` |
| `Boards` | `tool/demo_*.py`: the pictures of boards and solutions, the loop over the solutions |
| `Forbidden` | `solver.py`: `_solve_forbidden`, a second version of the search, which nothing calls |
| `Session` | whole programs: several models, solvers, constraint objects and iterations of `solve` and `optimize` in progress; per-call arguments; both as generator functions |
| `Report` | `tool/demo_knapsack.py`: the report; the texts of the map and graph demos (`termcolor.colored` and `repr` are parameters) |
| `Listing` | `tool/demo_utils.py`: `print_model`; `str` of constraints and of domains that are lists, tuples, ranges or sets |
| `Domains` | `model.py`: `add_int_variable`, `solver.py`: `_setup`, `solve`, with domains as objects of the caller: lists, sets, tuples, ranges, iterators |
| `Objects` | `solver.py`: the search with substitutions as dict objects, which the caller gets and may change |
| `Syntax` | Python source over expressions: operators, chained comparisons, `and`, `or`, `not`, `if … else`, `in`, `max`, `min` |
| `Repr` | `expression.py`, `constraint.py`: `__repr__` |
| `Singleton` | `utils.py`: `_Singleton`, `Infinity`, `Undefined` |
| `CommandLine` | `tool/__init__.py`: `main`, with the part of `argparse` described there |
| `Program` | `tool/__init__.py`, all `tool/demo_*.py`: a whole run, from the arguments to the output |
| `Cli` | `tool/__init__.py`: `type_on_off`, `int` of an ASCII text, the options `-z`, `-l`, `-i` |
| `Settings` | `solver.py`: `timeout` and `limit` as Python values, in the constructor, the setters and the arguments of `solve` |
| `Attributes` | `solver.py`: all settings as Python values, right or wrong, keyword arguments as dicts; `ModelSolverBase.__init__`; what `optimize` is given as objective; `objective.py`: `MinMax.__init__` |

Not modelled: `argparse` beyond what `CommandLine` says, reading JSON and graphs (what `json` and `networkx` return is a parameter), what `termcolor` and the `repr` of labels
return, the file system (a file is its content),
`__init__.py`.

An iteration of `solve` is a machine: one `sysStep` is one pass of the `while` loop, or what happens after a `yield`. A run
is any number of steps, so every statement about runs covers iterations that are broken off. The consumer may act on the heap
at each solution; that is how `optimize` tightens its bounds. The clock is an arbitrary function of the number of the reading.
The machine is proved to follow a recursive depth-first search (`Lemmas/Dfs`), from which soundness, completeness, order,
termination and the statements about optimisation are derived by induction.

## 3. Where the model simplifies

* **Values.** `int` and `bool` are Lean `Int` (`True` is 1). A computation that leaves the integers (`2 ** -1`, `/` in compiled
  text) ends in `Err.nonInt`; nothing is said about what follows. Domains hold ints and are immutable sequences; that this is exact for
  programs that leave their domain objects alone is C64_program.
* **Sets.** Frozensets are lists without repetition. Where the iteration order of a set could matter it is a parameter.
* **Names.** ASCII only, also for `upper()`. CPython's limit on nested brackets is not modelled.
* **Texts.** Constants that are bools print as `True` and `False` in Python and as `1` and `0` here. Keywords as names of parameters under a unary operator
  (`-(not)`) are excluded in C54: Python reads such a text as another expression.
* **Time.** Clock readings are exact integers. Formatting seconds is a parameter.
* **Objects.** Python objects that are compared by identity (parameters, constraints) carry a number. Theorems about several constraints assume that
  equal numbers mean equal objects (`SameIds`); it is proved for everything built through the API.
* **Model and search.** `solve` is given the model as a value, so it cannot change it; only the heap is mutable. Substitutions are
  values; that this is exact for the dict objects of the code, also if the consumer changes those it gets, is C67.
* **Exceptions in `optimize`.** If `add_solution` raises for the second objective, the bound set for the first is dropped in the model. The list of
  solutions of the inner `solve` then contains the solution that was not handed on.
* **Iterables.** Rows of weights of a knapsack are lists or tuples. The collection of rows can be iterated again or only once.
* **Nonogram.** The loops over rows and columns, the same code twice, are one model function.
* **Graphs.** A networkx graph is the list of its nodes and the list of its edges, in the order added.
* **Documents.** Input files of the demos hold ints, null, lists and objects with text keys, no floats and bools. The colours of the map demo are known to `termcolor`.
* **Cryptarithms.** The text handed to `eval` is lexed and parsed for names, numbers, `+ - * / // % **`, comparisons, brackets; other syntax is
  answered with a `SyntaxError`. Whether a result that is not an expression is a `bool` or an `int` is read off the formula (`Ast.isBool`).

## 4. Per property

Statuses are in `MANIFEST.json`. "Refuted" below means: proved false of the code, the part that holds is in a `…_partial` theorem.

* **C01** operators. One theorem per operator: the object that the operator builds evaluates to the value of the Python operation on the values of
  the operands, for int and expression operands. Induction over the flattening of sums and products. `Props/Numbers.lean` describes Python's operators on ints without the functions of the
  model: the quotient by inequalities, the remainder by what the quotient leaves, `&` and `|` bit by bit.
* **C02** number / expression. Refuted: always a `TypeError`.
* **C03** `vars()`. Exactly the occurring variables; evaluation depends on nothing else.
* **C04** parameters. Evaluation with a new value is evaluation of the tree in which the parameter is replaced.
* **C05–C07** compiled functions. Printing, parsing and evaluating the printed text is shown to agree with `evaluate` on a decidable fragment (`Safe`), by
  a simulation between printed text and parser for every operator level. Refuted outside of it by concrete expressions and names.
* **C08** `equals`. Refuted; exact characterisation of the result.
* **C09, C10** constraints. Direct.
* **C11–C13** the model API. Invariants over all histories of calls. C13 is refuted for all worlds.
* **C14–C19** `solve`: soundness, completeness, distinctness, termination, independence of the policy, order. Refinement of the machine by depth-first search.
* **C20–C22** limit, timeout, statistics. Comparison of the runs with and without a limit, for arbitrary clocks. C22 is refuted for the elapsed time.
* **C23–C27** repeated and interleaved solving. Equality of runs in different heaps. C24, C25, C26 are refuted in corner cases. Compiled and
  interpreted runs agree step by step, exceptions included, as long as `and`/`or` skip nothing that raises.
* **C28–C31** `optimize`. Branch and bound as depth-first search whose candidates depend on a changing bound. C30 is refuted: two independent
  reasons. C31 is refuted for solvers with different compilation settings.
* **C32–C34** knapsack, **C35** Sudoku, **C36** queens, **C37** graph labelling, **C38** nonograms, **C41** cryptarithms, **C42** maps, **C43** Einstein's riddle. The
  constructor is shown to build a model whose solutions are the objects of the specification; C14–C19 give the rest. Corner cases are refuted for all
  but C42 and C43.
* **C39, C40, C44** pictures, clues and images.
* **C45** the order of each policy: sorted by its key, ties in the original order.
* **C46, C47** printed texts: the sentence about the number of solutions; the equation with digits. C47 is refuted for lower case letters; what is printed then is proved too.
* **C48** `get_stats` with several iterations in progress. Refuted for the interrupt.
* **C49** using a model again. Simulation between two optimisations whose parameters and constraints have different identities.
* **C50, C51** the stack of the search and the number of steps. Invariant of the machine; counting the nodes of the depth-first search.
* **C52** how long a search runs after its timeout. Invariant relating the timer to the sum of the times of the passes.
* **C53** several objectives. A search invariant for all bounds at once (`Lemmas/Pareto`): bounds only improve, and each solution left out is no
  better than the final bound of some objective. Domination in the usual sense is false (`C53_refuted`).
* **C54** the text of compiled functions. The printed characters are split by the tokenizer into the printed tokens (induction over the tree, with a
  condition on the character that follows), and the parser of the `lambda` gives the function of the token level. Needs that the parser accepts exactly
  the phrases of a grammar (`parseBody_iff`).
* **C55** printed boards. Induction over rows and bands; the specification says which character is at which line and column, those of the frame
  included, so it determines the picture (`ChessPicture.unique`, `GridPicture.unique`).
* **C56** transcripts of the demos. From `PuzzleRun` (what a right puzzle solver does) and the statistics (C22), for every printing function; instances for
  queens, Sudoku, nonograms and the riddle.
* **C57** `INFINITY`. A second machine whose settings are Python values, equal to the first one step by step unless `INFINITY` reaches the loop; then it
  follows the machine with limit 1. Refuted for arguments of `solve`.
* **C58** `_solve_forbidden`. Step by step simulation with `solve`; the invariant says that the forbidden values are exactly the values of the bound
  neighbours. Refuted after the first solution (undefined names) and for models that `solve` treats apart.
* **C59, C60** programs. A machine whose steps are calls of the model API, assignments, and steps of iterations. Invariant: objects are used with the
  identity they were made with, compiled functions belong to their constraint. The constraints of an iteration evaluate as at its start. C60 is refuted
  if another iteration is started.
* **C61** report of the knapsack demo. From C32, C33 and the limit (C20, for any consumer). Refuted where the last line speaks of a sub-optimal solution.
* **C62** options. A grammar of integers and switches, independent of the reading functions; equivalence for all ASCII texts. Refuted for the map demo.
* **C63** listing of a model. A reader for the printed texts (tokens as in C07) gives back every bracketed expression up to the place of its constant; lines, names and domains are split at characters that cannot occur in them. Refuted for parameters, variables named `False`, and explicit sums and products of two values.
* **C64** domains as objects. The set-up of a search over objects is proved to commute with reading the objects; a search whose domains cannot be reached by the consumer is simulated by the one over values (`sysRun_sim`). Refuted by `append` after the declaration and by iterators.
* **C65** optimisations in programs. The machine of C59 also runs `optimize`, which makes objects of its own while others are in progress. Two runs that
  agree on the objects an iteration can reach go on alike (`Lemmas/Agree`). In a program the bounds are set before a solution is handed on
  (solver.py:413-421), in `optimizeRun` when the iteration is resumed; the two are related step by step (`Follows`), they differ only if an objective
  raises, and then by the solution that is not handed on.
* **C66** what `optimize` leaves out. Invariant of the search: every bound in force is the value of a solution handed out (`FromOuts`), and a value is left out
  only because of a bound (`dfs_covers`). For the last solution: bounds improve over every subtree in which the objective is still open, since the first
  solution in it had to pass the bound (`Lemmas/Left`, `LB.main`); once all variables of the objective are bound, nothing is left out and the bound stays.
  No condition on the order of domains is needed, unlike for C30. How much is lost by returning the last solution: the solutions with the same values for all
  variables of the objective but the last one are handed out together, and the last of them is the next bound (`LB.near`). So at most the
  effect of one variable is lost; for the knapsack, the value of one item (`C33_near`).
* **C67** solutions as objects (`Objects.lean`). The search keeps references to dicts, copies them and writes every candidate value into the copy; the caller
  changes the dicts it has in every step. Invariant: the references on the stack are to dicts the caller does not have (`Private`). One pass with references
  is one pass with values (`step_eq`), since what is left over from the loop over the candidates is overwritten.
* **C68** Python syntax (`Syntax.lean`). The meaning of a formula is its value on numbers, by recursion over the source; C01 and C02 give the cases of the operators. Refuted for
  everything that asks for the truth of an expression; `C68_chain_last`, `C68_connectives`, `C68_max_last`, `C68_in` say what such a formula becomes.
* **C69** `Timer` (`Timer.lean`). The description uses the sequence of calls only; induction from the last call.
* **C70** `repr` (`Repr.lean`). Every `repr` ends where its bracket closes, so two texts can be compared from the left (`Reading`): class names by a table, numbers and names up to a
  character that cannot occur in them, the elements of an accumulation by induction. `LooksLike` is a relation on trees that does not mention texts.
  `ShowsE` is a separate description of the text, with the class names spelled out (`Props/ReprText.lean`).
* **C71** singletons (`Singleton.lean`). Class attributes with inheritance; invariant over the calls. Refuted for `str`.
* **C72** calls of the model. A relation `Adding` for constraints and equations for declarations, in terms of names and occurrences; case analysis. `NameFits` is the grammar of names
  without the regular expression.
* **C73** command line (`CommandLine.lean`). Induction over the options: an invariant gives the value of each parameter as that of the last option about it. Assumed of `argparse`: what the
  head of the file says.
* **C74** the program (`Program.lean`): `main` and the demos put together from the models of their parts; C73 gives the parameters, the theorems about the puzzles the solutions,
  `outcome` the last line. `Report` is the description of what is printed, in terms of the options and the solutions of the puzzle. `Loaded` says which document is used and what is printed about it. For the
  default data the solutions are determined by evaluation (knapsack, graph), by a checked search (sudoku: `refute` follows a certificate and is proved sound, `Props/DefaultSudoku.lean`; map: a painting is checked, `Props/DefaultMap.lean`) or by going through the lines (nonogram); that the default texts are the documents they should be is
  shown with a reader for JSON (`Props/JsonText.lean`), which is proved to find exactly the documents of a grammar (`Props/JsonRead.lean`). It is part of the proofs, not of the model.
* **C75** settings and objectives (`Attributes.lean`). Refuted for the arguments of a call. Constructor and properties by cases, histories by induction; calls are reduced to C57. Objectives: the
  checked loop is `makeConstraints` up to the first thing that is no objective.
* **C76** trivial and wrong input (`Props/Trivial.lean`, about the model of C74). Refuted for trivial input. A model without variables is over before the clock starts, so the whole output is
  known for every number of steps. Wrong input: the exceptions of C34, C35 and C41, and those of `json`, seen from the command line.
* **C77** cryptarithms with other comparisons (`Props/Relation.lean`, spec `SpecRelation.lean`; about `cryptBuild`, like C41). Refuted for chains: only the decisive comparison is solved.
  The text is followed through `re.finditer`, the replaced words, the tokens, the parser (`pChain`) and the operators; then as in C41. `Props/RelationProgram.lean`: the output of the program.
* **C78** cryptarithms combined with `&` and `|` (`Props/Condition.lean`, `Props/ConditionProgram.lean`, spec `SpecCondition.lean`; about `cryptBuild`, like C41). Refuted for a `|` inside an `&`; every other nesting is proved, by induction on the text, and those too if constraints are not compiled (C78_uncompiled: `BuiltC` in `Lemmas/Built.lean` separates the two cases).
* **C79** cryptarithms that are no expressions (`Props/BrokenText.lean`, spec `SpecSyntax.lean`; about `cryptBuild`). Whatever the parser accepts passes a scan of its tokens (`Lemmas/Syntax.lean`: depth of brackets, last token);
  a text with a mistake fails the scan or has no tokens, also after the words are replaced. Proved in full for the mistakes listed; other texts that are no expressions (`A B`) are not covered.
* **C80** what `compile()` does (`Props/Compiled.lean`, about `Constraint.compile`, `isCompiled` and `evaluate` of `Constraint.lean`). Histories are lists of `compile()` calls and assignments; by induction on them.

Where a property is refuted in corner cases, a further theorem says what happens there, as far as that could be said shortly: C24 (`C24_exact`), C35
(`C35_fillings`, `C35_no_blank`, `C35_errors`), C36 (`C36_zero`), C37 (`C37_positions`, `C37_no_nodes`), C38 (`C38_blank`, `C38_zero`), C40 (`C40_blank`), C41 (`C41_chain`).

All properties could be expressed.

## 5. What was found in the code

Expressions and compiling
* `n / e` and `n // e` raise `TypeError` (C02).
* Compiled text: `Or` has no brackets; `Neg` and `Abs` print `str()`, which has `/` for floor division, `&` and `|` for `and` and `or`, and names for parameters;
  a negation is not bracketed left of `**`; variables named `sum`, `prod`, `abs` hide the helpers; keywords and names ending in a newline are accepted (C05–C07).
  Compiled `&` and `|` stop early, `evaluate` does not: an exception may occur in only one of them (C05, C25).
* `0 - p` for a parameter compiles to a text with an undefined name (C06).
* `free_vars` raises below a unary operator over a parameter (C03).
* `equals` is not structural (C08).

Model and solver
* `set_solvable` has no effect (C13).
* Constraints without variables are evaluated once, when added; later parameter values are not seen (C26).
* Constraints with one variable are applied once, before the search; an objective over one variable therefore never bounds anything (C30).
* Additional constraints without variables are never looked at; those with unknown variables are ignored (C24).
* A model without variables yields nothing, although the empty assignment is a solution (C15).
* `timeout=INFINITY` or `limit=INFINITY` as a per-call argument raises `TypeError`; the setter would accept it (C57).
* `solve(model, **args)` ignores unknown keywords and `compile_constraints`; a wrong `var_selection_policy` means ORDERED; constructor and setters accept any `timeout` and `limit`;
  `ModelSolver(solver=s, timeout=5)` ignores the timeout (C75).
* `_solve_forbidden` raises `NameError` after the first solution and `IndexError` without variables (C58).
* Starting an iteration recompiles constraints that another iteration is using; after an assignment to a parameter that one goes on with the new value (C60).
* Compiled functions stay in the constraints and are used by solvers that do not compile (C25, C26, C31, C49).
* Candidate values of the last variable are computed under an older bound, and each solution resets the bound, so a worse one replaces a better one (C30).
  Keeping the best solution handed out, instead of the last one, would be right (C66).
* With several objectives a solution is accepted if it improves one of them only, so the last one may be dominated (C53).
* `get_stats().elapsed` omits the time after the last solution (C22). `get_stats().interrupt` may be that of another iteration (C48).
* `add_all_different` with a parameter gives a `KeyError` when solving.
* `_Singleton.__str__` returns a method, so `str(INFINITY)` raises `TypeError` (C71). `__all__` in `utils.py` has the typo `InfiniTY`.

Puzzles and tools
* Graph labelling: duplicate labels give improper labellings; the empty graph yields nothing; duplicate nodes raise `ValueError` (C37).
* Queens: `n = 0` yields nothing (C36). Sudoku: contradictory givens are not noticed unless a blank sees them; a complete grid yields nothing (C35).
* Knapsack: no values give an object that raises `AttributeError` when called; a one-shot iterable of weights disables the capacities;
  exactly one nonzero value, or a negative value, gives a wrong "optimal" (C32–C34).
* Nonogram: the blank picture is not produced; a clue 0 duplicates results; the properties `source` and `expr` refer to missing attributes (C38, C40).
* Map: a list without rows raises `ValueError`; a map without regions yields nothing; `limit=None` becomes 1 (C42). `demo_ascii_map_coloring` opens an already opened file.
* Cryptarithm: of a chained equation only the last comparison is kept; `avoid_leading_zeros=False` is ignored; equations without letters yield nothing; words
  beginning with a digit get no leading zero constraint (C41).
* Comparing two `Const` objects gives an int, which `add_constraint` rejects with `TypeError`; so `0*x == 0*y` is no constraint, though `0*x == 0` is one. The
  cryptarithm `0*A==0*B` cannot be built (C41_type_error).
* Texts: lower case letters are left in the printed equation (C47); "partial" is printed when the limit equals the number of solutions, "all 0" for a model without
  variables, and `print_optimization_stats` says "optimal" when there is no solution (C46).
* The Sudoku and map demos have the limit 1 unless another one is given, so they call the only solution "partial" (C56). A Sudoku with too few rows raises
  `IndexError` while it is printed, before the solver could reject it with `ValueError` (C55).
* The knapsack demo says "Found sub-optimal solution" when nothing fits, and when the limit is reached at the best selection (C61).
* The map demo raises `TypeError` for every input file (C62, C74_map_file). An image for the nonogram demo that ends with a newline gets an extra blank row (C74_nonogram_image with
  an empty last line). The riddle numbers its statements from 0 (C74_einstein_text). `cryptarithm -z "A+B==C"` is a usage error, since `-z` takes the equation for its argument (C73).
* With nothing left to be found the programs say "Found all 0 solutions": `queens -b 0`, a finished sudoku (right or wrong), clues that are all empty, a blank image, a graph without nodes,
  `cryptarithm 1+1==2` (C76). Knapsack data without items end in an `AttributeError` (C76_knapsack_wrong).
* `cryptarithm "3<A<5"` also gives A = 1, 2, 3: of a chain of comparisons only the last one is solved, or one between numbers that is false (C77, C41_chain).
* `cryptarithm "((A==1)|(A==2))&(A==3)"` gives A = 1: `Or.py_expr` (expression.py:603-604) prints no brackets, so the compiled constraint reads `A == 1 or A == 2 and A == 3` (C78).
* Different models may have the same listing (C63).
* The parameters that `optimize` makes stay in the model as variables `_pN`; a constraint that mentions one depends on how far the optimisation has come
  (C65_own_parameters).
* `add_int_variable` keeps the caller's list: changing it later changes the model, even while it is being solved, and past the check for duplicates; an iterator as domain makes `solve` raise `TypeError` (C64).
* Expressions are true for Python. `1 <= x <= 3` is only `x <= 3`; `x == 1 and y == 2` is only `y == 2`; `x == 1 or y == 2` is only `x == 1`; `not x == 1` is `False`, which makes the
  model unsolvable; `max(x, y)` is `y`; `x == 1 & y == 2`, which is a chain for Python, does not mention `x` (C68). `__not__` (expression.py:151-152) is never called.

## 6. Trusted base

* The Lean 4.33.0 kernel. No `sorry`, `admit`, `native_decide`, `bv_decide`, no axioms added.
* Axioms: each theorem of the manifest depends on a subset of `propext`, `Classical.choice`, `Quot.sound`. Per theorem: `axioms.txt` (made by `tools/axioms.py`).
* Mathlib modules, imported one at a time, for lemmas only.
* That the definitions listed in section 2 render the cited lines of `/repo`, with the simplifications of section 3. This was checked by reading, and by evaluating
  the model on small inputs whose results follow from the source. It is not checked by a machine.
  `tools/cites.py` prints every citation beside the lines it points at; it was used to correct citations that were a few lines off (mostly `Forbidden`, `Boards`, `Demo`).
* That the statements say what the English properties say. Mutation testing (`seeded/LOG.jsonl`, `tools/mutants.py`) is evidence for this: edits of the model that
  make a claim false make its theorem fail.
