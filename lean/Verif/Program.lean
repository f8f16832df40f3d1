import Verif.CommandLine
import Verif.Boards
import Verif.Listing
import Verif.Queens
import Verif.Einstein
import Verif.Cryptarithm
import Verif.Sudoku
import Verif.Nonogram
import Verif.Image
import Verif.Report
/-!
# The program, from its arguments to its output

`main` and the demos (tool/__init__.py:55-282, tool/demo_*.py), put together from the models of their parts. The output is what has been printed after some number of
steps of the search. For a run that raises the exception is kept, not what was printed before.

`json`, `networkx` and `termcolor` are parameters of the machine. Documents with floats are left out.
-/

namespace Satisfy

/-- A JSON document. -/
inductive Json where
  | null
  | bool (b : Bool)
  | num (i : Int)
  | str (s : List Char)
  | arr (l : List Json)
  | obj (l : List (List Char × Json))

/-- What the program runs on. `seconds` is the value of a float in ticks of the clock, `none` for `inf` and `nan`, which no time exceeds; `fmt` is `"{:.3f}".format`;
`ord`, `order` and `positions` are the orders of a set of characters, of ints and of positions; `content` is the content of a file, `json` is `json.loads`, `none` if it
raises `JSONDecodeError`; `graph` gives the nodes and edges of `nx.node_link_graph`; `colored` is `termcolor.colored`, `repr` is `repr` of a string. -/
structure Machine where
  outside : Outside
  seconds : List Char → Option Int
  clock : Nat → Int
  fmt : Int → String
  shuffle : List Name → List Name
  ord : List Char → List Char
  order : List Int → List Int
  positions : List Pos → List Pos
  content : List Char → List Char
  json : List Char → Option Json
  graph : Json → Option (List (List Char) × List (List Char × List Char))
  colored : Char → List Char → List Char
  repr : List Char → List Char
  heap : Heap

/-- What is seen of a run. -/
inductive Output where
  | help
  | exit
  | outside
  | raised (e : Err)
  | text (t : List Char)

/-- The argument `limit` of a demo, as a setting of the solver. -/
def limitSetting : ArgVal → Setting
  | .infinity => .infinity
  | .int i => .num i
  | _ => .none

/-- The argument `timeout` of a demo, as a setting of the solver. -/
def Machine.timeoutSetting (m : Machine) : ArgVal → Setting
  | .infinity => .infinity
  | .float t => match m.seconds t with
    | some n => .num n
    | none => .infinity
  | _ => .none

/-- The solver of a puzzle class: `args['var_selection_policy'] = …`, `super().__init__(**args)`, `Solver(**args)` (queens.py:13-15, einstein_riddle.py:28-30,
cryptarithm.py:16-18, nonogram.py:16-18, graph_labeling.py:11-13, solver.py:41-55, 443-450). -/
def Machine.solveArgs (m : Machine) (policy : Policy) (timeout limit : ArgVal) : SolveArgs :=
  { solver := Solver.make { policy := policy } (m.timeoutSetting timeout) (limitSetting limit), shuffle := m.shuffle, clock := m.clock }

/-- The domain objects of a model, given the object for each list of values. -/
def domainObjects (obj : List Int → PyDomain) (m : Model) (x : Name) : PyDomain :=
  match m.vars.get? x with
  | some ⟨some d, _⟩ => obj d
  | _ => .tuple []

/-- The domains of `QueensSolver`: `range(a, b)` (queens.py:17, 25, 28). They are not empty. -/
def rangeObject : List Int → PyDomain
  | [] => .range 0 0 1
  | a :: l => .range a ((a :: l).getLast (by simp) + 1) 1

/-- The domains of `EinsteinRiddleSolver`: a tuple for the houses, a list for the differences (einstein_riddle.py:36, 98, 102, 112, 116). -/
def riddleObject (d : List Int) : PyDomain := if d = [-1, 1] then .list d else .tuple d

/-- `if show_model: print_model(solver.model)` (tool/demo_queens.py:42-43, tool/demo_einstein_riddle.py:34-35, tool/demo_cryptarithm.py:40-41). -/
def showModel (asked : ArgVal) (obj : List Int → PyDomain) (m : Model) : List Char :=
  if asked = .bool true then listing (domainObjects obj m) m else []

/-- All calls of `print`: `front` is printed before the loop, `lines` are the arguments of the calls from then on. -/
def printed (front : List Char) : Res (List (List Char)) → Output
  | .ok lines => .text (front ++ lines.flatMap (· ++ ['\n']))
  | .error e => .raised e

/-- `queens(board_size, timeout, limit, show_model)` (tool/demo_queens.py:38-49). -/
def queensDemo (m : Machine) (size timeout limit show_ : ArgVal) (n : Nat) : Output :=
  match size with
  | .int i =>
    match queensBuild i.toNat ⟨.empty, m.heap⟩ with
    | (_, .error e) => .raised e
    | (w, .ok queens) =>
      printed (showModel show_ rangeObject w.model)
        (demoRun m.fmt (fun B => .ok (queensPicture i.toNat B)) (puzzleRun (m.solveArgs .groups timeout limit) w (queensDecode i.toNat queens)) n)
  | _ => .raised .typeError

/-- `__statements__` (einstein_riddle.py:9-25). -/
def einStatements : List String := [
  "The English man lives in the red house.",
  "The Swede has a dog.",
  "The Dane drinks tea.",
  "The green house is immediately to the left of the white house.",
  "They drink coffee in the green house.",
  "The man who smokes Pall Mall has birds.",
  "In the yellow house they smoke Dunhill.",
  "In the middle house they drink milk.",
  "The Norwegian lives in the first house.",
  "The man who smokes Blend lives in the house next to the house with cats.",
  "In a house next to the house where they have a horse, they smoke Dunhill.",
  "The man who smokes Blue Master drinks beer.",
  "The German smokes Prince.",
  "The Norwegian lives next to the blue house.",
  "They drink water in a house next to the house where they smoke Blend."]

/-- `"{:>2d}. {}".format(i, statement)` (einstein_riddle.py:129). -/
def einStatement (i : Nat) (s : String) : List Char :=
  List.replicate (2 - (natStr i).length) ' ' ++ natStr i ++ ". ".toList ++ s.toList

/-- `riddle()` (einstein_riddle.py:127-133). -/
def einRiddle : List Char :=
  joinChars ['\n'] (einStatements.mapIdx einStatement ++
    ["".toList, "Who owns the zebra?".toList, "(see http://rosettacode.org/wiki/Zebra_puzzle)".toList])

/-- `einstein(timeout, limit, show_model)` (tool/demo_einstein_riddle.py:30-42). -/
def einsteinDemo (m : Machine) (timeout limit show_ : ArgVal) (n : Nat) : Output :=
  match einBuild ⟨.empty, m.heap⟩ with
  | (_, .error e) => .raised e
  | (w, .ok vs) =>
    printed (einRiddle ++ ['\n'] ++ showModel show_ riddleObject w.model)
      (demoRun m.fmt einPrint (puzzleRun (m.solveArgs .minBound timeout limit) w (einDecode vs)) n)

/-- `DEFAULT_CRYPTARITHM_SOURCE` (tool/demo_cryptarithm.py:13). -/
def defaultCryptarithm : List Char := "SEND+MORE==MONEY".toList

/-- `cryptarithm(source, avoid_leading_zeros, timeout, limit, show_model)` (tool/demo_cryptarithm.py:28-48). -/
def cryptarithmDemo (m : Machine) (source avoid timeout limit show_ : ArgVal) (n : Nat) : Output :=
  let (greeting, source) := match source with
    | .text s => (s ++ ['\n'], s)
    | _ => ("No input source - using default cryptarithm example:\n".toList ++ defaultCryptarithm ++ "\n\n".toList, defaultCryptarithm)
  match cryptBuild m.ord source (decide (avoid = .bool true)) ⟨.empty, m.heap⟩ with
  | (_, .error e) => .raised e
  | (w, .ok _) =>
    printed (greeting ++ showModel show_ .tuple w.model)
      (demoRun m.fmt (fun τ => cryptPrint τ source) (puzzleRun (m.solveArgs .minBound timeout limit) w .ok) n)

/-! ## The demos that may read a file -/

/-- Read all of a list. -/
def Json.each {α : Type} (f : Json → Option α) : List Json → Option (List α)
  | [] => some []
  | x :: xs => match f x, Json.each f xs with
    | some a, some l => some (a :: l)
    | _, _ => none

/-- A list of documents of some kind. -/
def Json.list {α : Type} (f : Json → Option α) : Json → Option (List α)
  | .arr l => Json.each f l
  | _ => none

/-- An entry of a sudoku. -/
def Json.entry : Json → Option (Option Int)
  | .null => some none
  | .num i => some (some i)
  | _ => none

/-- An int. -/
def Json.int : Json → Option Int
  | .num i => some i
  | _ => none

/-- Something in its place that may be an int: `isinstance(value, int)` (knapsack.py:25, 29, 39). -/
def Json.maybeInt : Json → Option (Option Int)
  | .num i => some (some i)
  | .bool b => some (some (if b then 1 else 0))
  | _ => some none

/-- `data[key]`. -/
def Json.field (key : List Char) : List (List Char × Json) → Res Json := fun l => match aget l key with
  | some j => .ok j
  | none => .error .keyError

/-- The text with these lines. -/
def textOf (lines : List String) : List Char := joinChars ['\n'] (lines.map String.toList)

/-- What is printed if there is no input (tool/demo_sudoku.py:70-73, demo_knapsack.py:48-51, demo_graph_labeling.py:85-88, demo_ascii_map_coloring.py:56-59,
demo_nonogram.py:76-79). -/
def noInput (what source : List Char) : List Char := "No input file - using default ".toList ++ what ++ ":\n".toList ++ source ++ "\n\n".toList

/-- The document, and what is printed before it is read (tool/demo_sudoku.py:68-76, demo_knapsack.py:46-54, demo_graph_labeling.py:83-91). -/
def Machine.load (m : Machine) (what source : List Char) : ArgVal → List Char × Option Json
  | .file f => ([], m.json (m.content f))
  | _ => (noInput what source, m.json source)

/-- `DEFAULT_SUDOKU_SOURCE` (tool/demo_sudoku.py:16-28). -/
def defaultSudoku : List String := [
  "",
  "[",
  "    [8, 0, 0, 0, 0, 0, 0, 0, 0],",
  "    [0, 0, 3, 6, 0, 0, 0, 0, 0],",
  "    [0, 7, 0, 0, 9, 0, 2, 0, 0],",
  "    [0, 5, 0, 0, 0, 7, 0, 0, 0],",
  "    [0, 0, 0, 0, 4, 5, 7, 0, 0],",
  "    [0, 0, 0, 1, 0, 0, 0, 3, 0],",
  "    [0, 0, 1, 0, 0, 0, 0, 6, 8],",
  "    [0, 0, 8, 5, 0, 0, 0, 1, 0],",
  "    [0, 9, 0, 0, 0, 0, 4, 0, 0]",
  "]",
  ""]

/-- The limit of `SudokuSolver` (sudoku.py:19-20) and `AsciiMapColoringSolver` (tool/ascii_map_coloring.py:85-86). -/
def orOne (limit : ArgVal) : ArgVal := if limit = .none then .int 1 else limit

/-- `sudoku(input_file, timeout, limit, show_model)` (tool/demo_sudoku.py:67-88). -/
def sudokuDemo (m : Machine) (input timeout limit show_ : ArgVal) (n : Nat) : Output :=
  match m.load "schema".toList (textOf defaultSudoku) input with
  | (_, none) => .raised .valueError
  | (greeting, some j) =>
    match Json.list (Json.list Json.entry) j with
    | none => .outside
    | some schema =>
      match sudokuBoard schema, sudokuBuild m.order schema ⟨.empty, m.heap⟩ with
      | .error e, _ => .raised e
      | _, (_, .error e) => .raised e
      | .ok board, (w, .ok vars) =>
        printed (greeting ++ "=== sudoku schema ===\n".toList ++ board.flatMap (· ++ ['\n']) ++ showModel show_ .set w.model)
          (demoRun m.fmt sudokuBoard (puzzleRun (m.solveArgs .groups timeout (orOne limit)) w (sudokuDecode schema vars)) n)

/-- `DEFAULT_NONOGRAM_SOURCE` (tool/demo_nonogram.py:21-26). -/
def defaultNonogram : List String := [
  "",
  "{",
  "    \"rows\": [[], [4], [6], [2, 2], [2, 2], [6], [4], [2], [2], [2], [], []],",
  "    \"columns\": [[], [9], [9], [2, 2], [2, 2], [4], [4], []]",
  "}",
  ""]

/-- `nonogram['rows']`, `nonogram['columns']` (nonogram.py:20-21); `none`: something else than lists of lists of ints. -/
def Json.clues : Json → Option (Res (List (List Int) × List (List Int)))
  | .obj l => match Json.field "rows".toList l, Json.field "columns".toList l with
    | .ok r, .ok c => match Json.list (Json.list Json.int) r, Json.list (Json.list Json.int) c with
      | some rows, some cols => some (.ok (rows, cols))
      | _, _ => none
    | _, _ => some (.error .keyError)
  | _ => none

/-- The clues of a document; `json.loads` may have raised. -/
def readClues : Option Json → Option (Res (List (List Int) × List (List Int)))
  | none => some (.error .valueError)
  | some j => j.clues

/-- The clues, and what is printed before (tool/demo_nonogram.py:71-82). -/
def Machine.clues (m : Machine) (file image : ArgVal) : List Char × Option (Res (List (List Int) × List (List Int))) :=
  match file, image with
  | .file f, _ => ([], readClues (m.json (m.content f)))
  | _, .file f => ([], some (imageToNonogram (m.content f)))
  | _, _ => (noInput "nonogram".toList (textOf defaultNonogram), readClues (m.json (textOf defaultNonogram)))

/-- `nonogram(input_file, input_image, timeout, limit, show_model)` (tool/demo_nonogram.py:70-92). -/
def nonogramDemo (m : Machine) (file image timeout limit show_ : ArgVal) (n : Nat) : Output :=
  match m.clues file image with
  | (_, none) => .outside
  | (_, some (.error e)) => .raised e
  | (greeting, some (.ok (rows, cols))) =>
    match nonoBuild rows cols ⟨.empty, m.heap⟩ with
    | (_, .error e) => .raised e
    | (w, .ok vs) =>
      printed (greeting ++ showModel show_ .list w.model)
        (demoRun m.fmt nonoPrint (puzzleRun (m.solveArgs .minBound timeout limit) w (nonoDecode cols.length vs)) n)

/-- `DEFAULT_GRAPH_LABELING_SOURCE` (tool/demo_graph_labeling.py:18-75). -/
def defaultGraph : List String := [
  "",
  "{",
  "    \"directed\": false,",
  "    \"graph\": {},",
  "    \"links\": [",
  "        {",
  "            \"source\": \"node1\",",
  "            \"target\": \"node3\"",
  "        },",
  "        {",
  "            \"source\": \"node1\",",
  "            \"target\": \"node2\"",
  "        },",
  "        {",
  "            \"source\": \"node1\",",
  "            \"target\": \"node0\"",
  "        },",
  "        {",
  "            \"source\": \"node3\",",
  "            \"target\": \"node0\"",
  "        },",
  "        {",
  "            \"source\": \"node3\",",
  "            \"target\": \"node4\"",
  "        },",
  "        {",
  "            \"source\": \"node2\",",
  "            \"target\": \"node0\"",
  "        },",
  "        {",
  "            \"source\": \"node2\",",
  "            \"target\": \"node4\"",
  "        },",
  "        {",
  "            \"source\": \"node0\",",
  "            \"target\": \"node4\"",
  "        }",
  "    ],",
  "    \"multigraph\": false,",
  "    \"nodes\": [",
  "        {",
  "            \"id\": \"node1\"",
  "        },",
  "        {",
  "            \"id\": \"node3\"",
  "        },",
  "        {",
  "            \"id\": \"node2\"",
  "        },",
  "        {",
  "            \"id\": \"node0\"",
  "        },",
  "        {",
  "            \"id\": \"node4\"",
  "        }",
  "    ]",
  "}",
  ""]

/-- `graph_labeling(input_file, labels, timeout, limit, show_model)` (tool/demo_graph_labeling.py:82-104). -/
def graphDemo (m : Machine) (input labels timeout limit show_ : ArgVal) (n : Nat) : Output :=
  match m.load "data".toList (textOf defaultGraph) input, labels with
  | (_, none), _ => .raised .valueError
  | (greeting, some j), .texts labels =>
    match m.graph j with
    | none => .outside
    | some (nodes, edges) =>
      match graphBuild nodes edges labels ⟨.empty, m.heap⟩ with
      | (_, .error e) => .raised e
      | (w, .ok d) =>
        printed (greeting ++ showModel show_ .tuple w.model)
          (demoRun m.fmt (fun L => .ok [dictText m.repr m.repr L]) (puzzleRun (m.solveArgs .ordered timeout limit) w (graphDecode d labels)) n)
  | _, _ => .outside

/-- `DEFAULT_ASCII_MAP_COLORING_SOURCE` (tool/demo_ascii_map_coloring.py:14-46). -/
def defaultMap : List String := [
  "           0001111111144",
  "        000011111111114433     33",
  "      000111111111111111333333333333332222 ",
  "    22222111111111111111333333333333333322222",
  "   2222333311111111111111333333333333333222222",
  "   22223333666111111111111333333333333332222222",
  "  3333333336666611111111111FFFFFHHHHHH3222222222",
  " 333333333366666666611111FFFFFFHHHHHHHHZZZZZZZZZZ ",
  "33333333333666666666FFFFFFFFFFFHHHHHHHHZZZZZZZZZZYYY  XXXXX",
  "4444446666666666666FFFFFFFFFFFHHHHHHHHHZZZZZZZZZYYYYXXXXXXX",
  " 444446666666BBCDDDEEFFFFFFFFFHHHHHHHHHZZZZZZZZYYYYYYYXXXX",
  "  5556666666ABBBCDDEEEEEEEEEEEGHHHHHHHHIZZZZZZZZYYYYXXXX",
  "   6667888AAABBBCDDDEEEEEEEEEGGGHHHHHHHIIZZZZZZYYYYXXX ",
  "    7779999AABBBBCDDEEEEEGGGGGGGHHHIIIIIIZZZZVVVYYXX",
  "        999AABBBBCDDEEGGGGGGGGIIIIIIIIIII0UUUUVVVVV",
  "                      GGGGGGGIIIIIIIIII11UUUUUVVVV",
  "                     KKKLLLLJJIIIIIIJJJUUUUUUUUVV",
  "                      KKLLLJJJJJJJJJJJJUUUUUUUUV",
  "                       KLLJJJJJJJJJJJJJUUUUUUUU",
  "                       MMMMMJJJJJJJJJJJUUUUUUUU",
  "                       MMMMMMMJJJJJJJJTTTTTUUUU",
  "                       MMMMMMMMMMJJJJJTTTTTSSSS",
  "                       MMMMMMMMMMMJTTTTTTSSSSSS",
  "                      MMMMMMMMMMMTTTTTSSSSSSSS",
  "                       NNNNNNNNNNNQQQQQSSSSS ",
  "                        NNNNNNQQQQQQQOOOSSS",
  "                         NNNNNQQQOOOOOOOORR",
  "                         NNNNNOOOOOOOOPPOR",
  "                          NNNNOOOOOOOOOO",
  "                           OOOOOOOOOOO ",
  "                             OOOOO    ",
  ""]

/-- `ascii_map_coloring` without a file, given the default text (tool/demo_ascii_map_coloring.py:55-60, 65-74, tool/ascii_map_coloring.py:15-16). -/
def mapDemoOn (m : Machine) (source : List String) (colors : List (List Char)) (timeout limit show_ : ArgVal) (n : Nat) : Output :=
  match mapBuild m.positions (pySplit '\n' (textOf source)) colors ⟨.empty, m.heap⟩ with
  | (_, .error e) => .raised e
  | (_, .ok none) => .outside
  | (w, .ok (some (groups, d))) =>
    printed (noInput "data".toList (textOf source) ++ showModel show_ .tuple w.model)
      (demoRun m.fmt (fun M => .ok [mapText m.colored M])
        (puzzleRun (m.solveArgs .ordered timeout (orOne limit)) w (mapDecode m.positions (pySplit '\n' (textOf source)) groups d colors)) n)

/-- `ascii_map_coloring(input_file, colors, timeout, limit, show_model)` (tool/demo_ascii_map_coloring.py:53-74). `input_file` has already been opened by `argparse`
(tool/__init__.py:161-170), and `open` refuses it. -/
def mapDemo (m : Machine) (input colors timeout limit show_ : ArgVal) (n : Nat) : Output :=
  match input, colors with
  | .file _, _ => .raised .typeError
  | _, .texts colors => mapDemoOn m defaultMap colors timeout limit show_ n
  | _, _ => .outside

/-- `DEFAULT_KNAPSACK_SOURCE` (tool/demo_knapsack.py:16-38). -/
def defaultKnapsack : List String := [
  "",
  "{",
  "    \"capacities\": [8, 6],",
  "    \"values\": [",
  "        10,",
  "        12,",
  "        20,",
  "        23,",
  "        15,",
  "        14,",
  "        16",
  "    ],",
  "    \"weights\": [",
  "        [1, 1],",
  "        [2, 1],",
  "        [5, 3],",
  "        [4, 4],",
  "        [2, 2],",
  "        [2, 2],",
  "        [2, 3]",
  "    ]",
  "}",
  ""]

/-- `data['values']`, `data['capacities']`, `data['weights']` (tool/demo_knapsack.py:56-58); `none`: something else than lists. -/
def Json.items : Json → Option (Res (List (Option Int) × List (Option Int) × List (List (Option Int))))
  | .obj l => match Json.field "values".toList l, Json.field "capacities".toList l, Json.field "weights".toList l with
    | .ok v, .ok c, .ok w =>
      match Json.list Json.maybeInt v, Json.list Json.maybeInt c, Json.list (Json.list Json.maybeInt) w with
      | some vs, some cs, some ws => some (.ok (vs, cs, ws))
      | _, _, _ => none
    | _, _, _ => some (.error .keyError)
  | _ => none

/-- `knapsack(input_file, timeout, limit, show_model)` (tool/demo_knapsack.py:45-84). -/
def knapsackProgram (m : Machine) (input timeout limit show_ : ArgVal) (n : Nat) : Output :=
  match m.load "data".toList (textOf defaultKnapsack) input with
  | (_, none) => .raised .valueError
  | (greeting, some j) =>
    match j.items with
    | none => .outside
    | some (.error e) => .raised e
    | some (.ok (values, capacities, weights)) =>
      match knapBuild values capacities (.seq weights) ⟨.empty, m.heap⟩ with
      | (_, .error e) => .raised e
      | (w, .ok k) =>
        printed (greeting ++ showModel show_ .tuple w.model)
          ((knapsackDemo m.fmt (m.solveArgs .groups timeout limit) k n w).getD (.ok []))

/-- `kwargs[name]`. -/
def kwarg (kw : List (Dest × ArgVal)) (d : Dest) : ArgVal := (aget kw d).getD .none

/-- The program (tool/__init__.py:55-282) with the arguments `args`, after `n` steps of the search. -/
def program (m : Machine) (args : List (List Char)) (n : Nat) : Output :=
  match mainCall m.outside args with
  | .help => .help
  | .exit => .exit
  | .outside => .outside
  | .raised e => .raised e
  | .call .queens kw => queensDemo m (kwarg kw .boardSize) (kwarg kw .timeout) (kwarg kw .limit) (kwarg kw .showModel) n
  | .call .einstein kw => einsteinDemo m (kwarg kw .timeout) (kwarg kw .limit) (kwarg kw .showModel) n
  | .call .cryptarithm kw =>
    cryptarithmDemo m (kwarg kw .source) (kwarg kw .avoidLeadingZeros) (kwarg kw .timeout) (kwarg kw .limit) (kwarg kw .showModel) n
  | .call .sudoku kw => sudokuDemo m (kwarg kw .inputFile) (kwarg kw .timeout) (kwarg kw .limit) (kwarg kw .showModel) n
  | .call .nonogram kw =>
    nonogramDemo m (kwarg kw .inputFile) (kwarg kw .inputImage) (kwarg kw .timeout) (kwarg kw .limit) (kwarg kw .showModel) n
  | .call .graphLabeling kw =>
    graphDemo m (kwarg kw .inputFile) (kwarg kw .labels) (kwarg kw .timeout) (kwarg kw .limit) (kwarg kw .showModel) n
  | .call .asciiMapColoring kw =>
    mapDemo m (kwarg kw .inputFile) (kwarg kw .colors) (kwarg kw .timeout) (kwarg kw .limit) (kwarg kw .showModel) n
  | .call .knapsack kw => knapsackProgram m (kwarg kw .inputFile) (kwarg kw .timeout) (kwarg kw .limit) (kwarg kw .showModel) n

end Satisfy
