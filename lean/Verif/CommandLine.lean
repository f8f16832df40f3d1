import Verif.Cli
/-!
# The command line as a whole (tool/__init__.py:55-282)

`main` declares the parsers and calls a demo with what `argparse` makes of the arguments. Of `argparse`, this is modelled: an argument that starts with `-`
is an option and has to be one of the option strings of the parser of the command, all others are plain; an option takes the plain arguments that follow it,
as many as its `nargs` allows; the plain arguments that are left go to the positional argument, if there is one, and otherwise are an error; a text is converted
by `type`, and failure is an error; of several occurrences of an option the last one counts, except in a mutually exclusive group. Errors end the program
(`SystemExit`). Not modelled (`Outcome.outside`): abbreviated options, options and values in one argument, negative numbers, `--`, `-h`.

Which texts `float` accepts and which files can be opened is left open (`Outside`).
-/

namespace Satisfy

/-- What is outside of the program: the texts `float` accepts, the files that can be opened. -/
structure Outside where
  isFloat : List Char → Bool
  readable : List Char → Bool

/-- The commands. -/
inductive Command where
  | knapsack | sudoku | graphLabeling | asciiMapColoring | nonogram | queens | einstein | cryptarithm
  deriving DecidableEq

/-- Their names (tool/__init__.py:83, 99, 115, 131, 146, 196, 215, 225). -/
def Command.word : Command → List Char
  | .knapsack => "knapsack".toList
  | .sudoku => "sudoku".toList
  | .graphLabeling => "graph_labeling".toList
  | .asciiMapColoring => "ascii_map_coloring".toList
  | .nonogram => "nonogram".toList
  | .queens => "queens".toList
  | .einstein => "einstein".toList
  | .cryptarithm => "cryptarithm".toList

/-- In the order of the declarations. -/
def Command.all : List Command :=
  [.knapsack, .sudoku, .graphLabeling, .asciiMapColoring, .nonogram, .queens, .einstein, .cryptarithm]

/-- The attributes of the namespace. -/
inductive Dest where
  | inputFile | inputImage | labels | colors | boardSize | avoidLeadingZeros | source | timeout | limit | showModel
  deriving DecidableEq

/-- Their values. A float is represented by its text, a file by its name. -/
inductive ArgVal where
  | none | infinity | bool (b : Bool) | int (i : Int) | float (text : List Char) | text (t : List Char) | texts (l : List (List Char)) | file (name : List Char)
  deriving DecidableEq

/-- `nargs`: not given, `'?'`, `'+'`, and `action="store_true"`. -/
inductive NArgs where
  | one | optional | plus | flag
  deriving DecidableEq

/-- An option. -/
structure OptDecl where
  short : List Char
  long : List Char
  dest : Dest
  nargs : NArgs
  const : ArgVal
  default : ArgVal
  conv : List Char → Option ArgVal

/-- `type=argparse.FileType('r')`. -/
def Outside.openFile (o : Outside) (t : List Char) : Option ArgVal := if o.readable t then some (.file t) else .none

/-- `type=float`. -/
def Outside.toFloat (o : Outside) (t : List Char) : Option ArgVal := if o.isFloat t then some (.float t) else .none

/-- `type=int`. -/
def toIntArg (t : List Char) : Option ArgVal :=
  match pyInt t with
  | .ok i => some (.int i)
  | .error _ => none

/-- `type=type_on_off`. -/
def toSwitch (t : List Char) : Option ArgVal :=
  match typeOnOff t with
  | .ok b => some (.bool b)
  | .error _ => none

/-- `-i` (tool/__init__.py:162-167, 170-175). -/
def fileOpt (o : Outside) : OptDecl := ⟨"-i".toList, "--input-file".toList, .inputFile, .one, .none, .none, o.openFile⟩

/-- `-I` (tool/__init__.py:176-181). -/
def imageOpt (o : Outside) : OptDecl := ⟨"-I".toList, "--input-image".toList, .inputImage, .one, .none, .none, o.openFile⟩

/-- `-L` (tool/__init__.py:183-187). -/
def labelsOpt : OptDecl :=
  ⟨"-L".toList, "--labels".toList, .labels, .plus, .none, .texts ["red".toList, "blue".toList, "green".toList], fun t => some (.text t)⟩

/-- `-C` (tool/__init__.py:189-193). -/
def colorsOpt : OptDecl :=
  ⟨"-C".toList, "--colors".toList, .colors, .plus, .none, .texts ["red".toList, "blue".toList, "green".toList, "yellow".toList], fun t => some (.text t)⟩

/-- `-b` (tool/__init__.py:207-212). -/
def sizeOpt : OptDecl := ⟨"-b".toList, "--board-size".toList, .boardSize, .one, .none, .int 8, toIntArg⟩

/-- `-z` (tool/__init__.py:237-242). -/
def zerosOpt : OptDecl := ⟨"-z".toList, "--avoid-leading-zeros".toList, .avoidLeadingZeros, .optional, .text "on".toList, .bool true, toSwitch⟩

/-- `-t` (tool/__init__.py:253-259). -/
def timeoutOpt (o : Outside) : OptDecl := ⟨"-t".toList, "--timeout".toList, .timeout, .optional, .infinity, .none, o.toFloat⟩

/-- `-l` (tool/__init__.py:261-267). -/
def limitOpt : OptDecl := ⟨"-l".toList, "--limit".toList, .limit, .optional, .infinity, .none, toIntArg⟩

/-- `-s` (tool/__init__.py:269-273). -/
def showOpt : OptDecl := ⟨"-s".toList, "--show-model".toList, .showModel, .flag, .bool true, .bool false, fun _ => none⟩

/-- The options of every command (tool/__init__.py:249-273). -/
def solveOpts (o : Outside) : List OptDecl := [timeoutOpt o, limitOpt, showOpt]

/-- The options of each parser (tool/__init__.py:161-193, 207-212, 237-242, 249-273). -/
def Command.options (o : Outside) : Command → List OptDecl
  | .knapsack => fileOpt o :: solveOpts o
  | .sudoku => fileOpt o :: solveOpts o
  | .graphLabeling => fileOpt o :: labelsOpt :: solveOpts o
  | .asciiMapColoring => fileOpt o :: colorsOpt :: solveOpts o
  | .nonogram => fileOpt o :: imageOpt o :: solveOpts o
  | .queens => sizeOpt :: solveOpts o
  | .einstein => solveOpts o
  | .cryptarithm => zerosOpt :: solveOpts o

/-- The positional argument, with `nargs='?'` and default `None` (tool/__init__.py:244-247). -/
def Command.positional : Command → Option Dest
  | .cryptarithm => some .source
  | _ => none

/-- The mutually exclusive group (tool/__init__.py:169-181). -/
def Command.exclusive : Command → List Dest
  | .nonogram => [.inputFile, .inputImage]
  | _ => []

/-- `solve_args` (tool/__init__.py:75). -/
def solveArgs : List Dest := [.timeout, .limit, .showModel]

/-- `function_args` (tool/__init__.py:96, 112, 128, 143, 159, 205, 222, 235). -/
def Command.functionArgs : Command → List Dest
  | .knapsack => .inputFile :: solveArgs
  | .sudoku => .inputFile :: solveArgs
  | .graphLabeling => .inputFile :: .labels :: solveArgs
  | .asciiMapColoring => .inputFile :: .colors :: solveArgs
  | .nonogram => .inputFile :: .inputImage :: solveArgs
  | .queens => .boardSize :: solveArgs
  | .einstein => solveArgs
  | .cryptarithm => .source :: .avoidLeadingZeros :: solveArgs

/-- The parameters of the demos (tool/demo_knapsack.py:45, tool/demo_sudoku.py:67, tool/demo_graph_labeling.py:82, tool/demo_ascii_map_coloring.py:53,
tool/demo_nonogram.py:70, tool/demo_queens.py:38, tool/demo_einstein_riddle.py:30, tool/demo_cryptarithm.py:28). -/
def Command.parameters : Command → List Dest
  | .knapsack => [.inputFile, .timeout, .limit, .showModel]
  | .sudoku => [.inputFile, .timeout, .limit, .showModel]
  | .graphLabeling => [.inputFile, .labels, .timeout, .limit, .showModel]
  | .asciiMapColoring => [.inputFile, .colors, .timeout, .limit, .showModel]
  | .nonogram => [.inputFile, .inputImage, .timeout, .limit, .showModel]
  | .queens => [.boardSize, .timeout, .limit, .showModel]
  | .einstein => [.timeout, .limit, .showModel]
  | .cryptarithm => [.source, .avoidLeadingZeros, .timeout, .limit, .showModel]

/-- An argument: plain, or an option. -/
inductive ArgTok where
  | plain (t : List Char)
  | opt (d : OptDecl)

/-- `argparse`: what an argument is; `none`: not modelled. -/
def classify (ds : List OptDecl) (t : List Char) : Option ArgTok :=
  match t with
  | '-' :: _ => (ds.find? (fun d => d.short = t ∨ d.long = t)).map .opt
  | _ => some (.plain t)

/-- The plain arguments at the beginning, and each option with the plain arguments that follow it. -/
def segments : List ArgTok → List (List Char) × List (OptDecl × List (List Char))
  | [] => ([], [])
  | .plain t :: ts => (t :: (segments ts).1, (segments ts).2)
  | .opt d :: ts => ([], (d, (segments ts).1) :: (segments ts).2)

/-- `argparse`: the value an option gets, and the plain arguments it leaves. A `const` that is a string is converted. -/
def OptDecl.take (d : OptDecl) (l : List (List Char)) : Option (ArgVal × List (List Char)) :=
  match d.nargs, l with
  | .one, [] => none
  | .one, t :: r => (d.conv t).map (fun v => (v, r))
  | .optional, [] =>
    match d.const with
    | .text t => (d.conv t).map (fun v => (v, []))
    | v => some (v, [])
  | .optional, t :: r => (d.conv t).map (fun v => (v, r))
  | .plus, [] => none
  | .plus, t :: r => some (.texts (t :: r), [])
  | .flag, l => some (d.const, l)

/-- `setattr(namespace, d, v)`. -/
def setDest (space : Dest → Option ArgVal) (d : Dest) (v : ArgVal) : Dest → Option ArgVal := fun d' => if d' = d then some v else space d'

/-- The state of a parser: the namespace, whether the positional argument is still missing, the options seen of the mutually exclusive group. -/
structure ParseState where
  space : Dest → Option ArgVal
  positional : Option Dest
  seen : List Dest

/-- `argparse`: plain arguments that no option took. -/
def ParseState.plains (s : ParseState) : List (List Char) → Option ParseState
  | [] => some s
  | [t] =>
    match s.positional with
    | some d => some { s with space := setDest s.space d (.text t), positional := none }
    | none => none
  | _ :: _ :: _ => none

/-- `argparse`: an option with the plain arguments that follow it. -/
def ParseState.option (group : List Dest) (s : ParseState) (p : OptDecl × List (List Char)) : Option ParseState :=
  match p.1.take p.2 with
  | none => none
  | some (v, r) =>
    if p.1.dest ∈ group ∧ ∃ d ∈ s.seen, d ≠ p.1.dest then none
    else ParseState.plains
      { s with space := setDest s.space p.1.dest v, seen := if p.1.dest ∈ group then p.1.dest :: s.seen else s.seen } r

/-- `argparse`: all options, one after the other. -/
def ParseState.options (group : List Dest) : ParseState → List (OptDecl × List (List Char)) → Option ParseState
  | s, [] => some s
  | s, p :: ps => (s.option group p).bind (fun s => s.options group ps)

/-- The namespace a parser starts with: the defaults. -/
def Command.start (o : Outside) (c : Command) : ParseState :=
  ⟨fun d =>
    match (c.options o).find? (fun x => x.dest = d) with
    | some x => some x.default
    | none => if c.positional = some d then some .none else none, c.positional, []⟩

/-- The parser of a command. -/
def Command.parse (o : Outside) (c : Command) (ts : List ArgTok) : Option (Dest → Option ArgVal) :=
  ((c.start o).plains (segments ts).1).bind (fun s => (s.options c.exclusive (segments ts).2).map (·.space))

/-- What happens in the end. -/
inductive Outcome where
  | help                                                                -- the help is printed
  | exit                                                                -- `argparse` ends the program
  | outside                                                             -- not modelled
  | raised (e : Err)
  | call (c : Command) (kwargs : List (Dest × ArgVal))                  -- the demo is called

/-- `argparse` after the command: all arguments classified. -/
def classifyAll (ds : List OptDecl) : List (List Char) → Option (List ArgTok)
  | [] => some []
  | t :: ts => (classify ds t).bind (fun a => (classifyAll ds ts).map (a :: ·))

/-- `getattr(namespace, arg)` for all `function_args` (tool/__init__.py:278-280). -/
def kwargsOf (ns : Dest → Option ArgVal) : List Dest → Res (List (Dest × ArgVal))
  | [] => .ok []
  | d :: ds =>
    match ns d with
    | none => .error .attributeError
    | some v => (kwargsOf ns ds).map ((d, v) :: ·)

/-- `function(**kwargs)` (tool/__init__.py:277-281): the keywords have to be the parameters. -/
def callDemo (c : Command) (ns : Dest → Option ArgVal) : Outcome :=
  match kwargsOf ns c.functionArgs with
  | .error e => .raised e
  | .ok kw => if (∀ d ∈ kw.map Prod.fst, d ∈ c.parameters) ∧ (∀ d ∈ c.parameters, d ∈ kw.map Prod.fst) then .call c kw else .raised .typeError

/-- `main` (tool/__init__.py:55-282), for the arguments after the name of the program. -/
def mainCall (o : Outside) : List (List Char) → Outcome
  | [] => .help
  | name :: args =>
    match Command.all.find? (fun c => c.word = name) with
    | none => if name.head? = some '-' then .outside else .exit
    | some c =>
      match classifyAll (c.options o) args with
      | none => .outside
      | some ts =>
        match c.parse o ts with
        | none => .exit
        | some ns => callDemo c ns

end Satisfy
