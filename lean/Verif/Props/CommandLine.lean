import Verif.CommandLine
import Verif.Props.Cli
/-!
# What the command line calls: C73
-/

namespace Satisfy.Props
open Satisfy

/-- Specification: an option on the command line, with its arguments. -/
inductive Piece where
  | file (t : List Char)
  | image (t : List Char)
  | labels (t : List Char) (ts : List (List Char))
  | colors (t : List Char) (ts : List (List Char))
  | size (t : List Char)
  | zeros (t : Option (List Char))
  | timeout (t : Option (List Char))
  | limit (t : Option (List Char))
  | showModel

/-- Its short name. -/
def Piece.short : Piece → List Char
  | .file _ => ['-', 'i']
  | .image _ => ['-', 'I']
  | .labels _ _ => ['-', 'L']
  | .colors _ _ => ['-', 'C']
  | .size _ => ['-', 'b']
  | .zeros _ => ['-', 'z']
  | .timeout _ => ['-', 't']
  | .limit _ => ['-', 'l']
  | .showModel => ['-', 's']

/-- Its long name. -/
def Piece.long : Piece → List Char
  | .file _ => "--input-file".toList
  | .image _ => "--input-image".toList
  | .labels _ _ => "--labels".toList
  | .colors _ _ => "--colors".toList
  | .size _ => "--board-size".toList
  | .zeros _ => "--avoid-leading-zeros".toList
  | .timeout _ => "--timeout".toList
  | .limit _ => "--limit".toList
  | .showModel => "--show-model".toList

/-- Its arguments. -/
def Piece.texts : Piece → List (List Char)
  | .file t => [t]
  | .image t => [t]
  | .labels t ts => t :: ts
  | .colors t ts => t :: ts
  | .size t => [t]
  | .zeros t => t.toList
  | .timeout t => t.toList
  | .limit t => t.toList
  | .showModel => []

/-- What it is about. -/
def Piece.about : Piece → Dest
  | .file _ => .inputFile
  | .image _ => .inputImage
  | .labels _ _ => .labels
  | .colors _ _ => .colors
  | .size _ => .boardSize
  | .zeros _ => .avoidLeadingZeros
  | .timeout _ => .timeout
  | .limit _ => .limit
  | .showModel => .showModel

/-- Specification: the options of each command. -/
def Piece.Belongs (c : Command) : Piece → Prop
  | .file _ => c = .knapsack ∨ c = .sudoku ∨ c = .graphLabeling ∨ c = .asciiMapColoring ∨ c = .nonogram
  | .image _ => c = .nonogram
  | .labels _ _ => c = .graphLabeling
  | .colors _ _ => c = .asciiMapColoring
  | .size _ => c = .queens
  | .zeros _ => c = .cryptarithm
  | _ => True

/-- Specification: the value an option stands for. -/
inductive Means (o : Outside) : Piece → ArgVal → Prop
  | file {t} : o.readable t = true → Means o (.file t) (.file t)
  | image {t} : o.readable t = true → Means o (.image t) (.file t)
  | labels {t ts} : Means o (.labels t ts) (.texts (t :: ts))
  | colors {t ts} : Means o (.colors t ts) (.texts (t :: ts))
  | size {t i} : IntegerText t i → Means o (.size t) (.int i)
  | zerosBare : Means o (.zeros none) (.bool true)
  | zeros {t b} : Switch t b → Means o (.zeros (some t)) (.bool b)
  | timeoutBare : Means o (.timeout none) .infinity
  | timeout {t} : o.isFloat t = true → Means o (.timeout (some t)) (.float t)
  | limitBare : Means o (.limit none) .infinity
  | limit {t i} : IntegerText t i → Means o (.limit (some t)) (.int i)
  | showModel : Means o .showModel (.bool true)

/-- Specification: the value without an option. -/
def byDefault : Dest → ArgVal
  | .labels => .texts [['r', 'e', 'd'], ['b', 'l', 'u', 'e'], ['g', 'r', 'e', 'e', 'n']]
  | .colors => .texts [['r', 'e', 'd'], ['b', 'l', 'u', 'e'], ['g', 'r', 'e', 'e', 'n'], ['y', 'e', 'l', 'l', 'o', 'w']]
  | .boardSize => .int 8
  | .avoidLeadingZeros => .bool true
  | .showModel => .bool false
  | _ => .none

/-- An argument that does not look like an option. -/
def PlainArg (t : List Char) : Prop := t.head? ≠ some '-'

/-- An option that could take another argument. -/
def Piece.Bare (p : Piece) : Prop := p = .zeros none ∨ p = .timeout none ∨ p = .limit none

/-- The arguments for some options; each of them is written with its short or with its long name. -/
inductive Written : List Piece → List (List Char) → Prop
  | nil : Written [] []
  | short {p ps l} : Written ps l → Written (p :: ps) (p.short :: p.texts ++ l)
  | long {p ps l} : Written ps l → Written (p :: ps) (p.long :: p.texts ++ l)

/-- Specification: the value of `d` that some options ask for: that of the last one about `d`, or the default. -/
def Asked (o : Outside) (ps : List Piece) (d : Dest) (v : ArgVal) : Prop :=
  (∃ pre p post, ps = pre ++ p :: post ∧ p.about = d ∧ Means o p v ∧ ∀ q ∈ post, q.about ≠ d) ∨ ((∀ p ∈ ps, p.about ≠ d) ∧ v = byDefault d)

/-! ## The tokens -/

/-- The declaration of an option. -/
def Piece.decl (o : Outside) : Piece → OptDecl
  | .file _ => fileOpt o
  | .image _ => imageOpt o
  | .labels _ _ => labelsOpt
  | .colors _ _ => colorsOpt
  | .size _ => sizeOpt
  | .zeros _ => zerosOpt
  | .timeout _ => timeoutOpt o
  | .limit _ => limitOpt
  | .showModel => showOpt

theorem decl_dest (o : Outside) (p : Piece) : (p.decl o).dest = p.about := by cases p <;> rfl

theorem classify_short (o : Outside) {c : Command} {p : Piece} (h : p.Belongs c) : classify (c.options o) p.short = some (.opt (p.decl o)) := by
  cases p <;> simp only [Piece.Belongs] at h
  case file => rcases h with rfl | rfl | rfl | rfl | rfl <;> rfl
  case image => subst h; rfl
  case labels => subst h; rfl
  case colors => subst h; rfl
  case size => subst h; rfl
  case zeros => subst h; rfl
  all_goals cases c <;> rfl

theorem classify_long (o : Outside) {c : Command} {p : Piece} (h : p.Belongs c) : classify (c.options o) p.long = some (.opt (p.decl o)) := by
  cases p <;> simp only [Piece.Belongs] at h
  case file => rcases h with rfl | rfl | rfl | rfl | rfl <;> rfl
  case image => subst h; rfl
  case labels => subst h; rfl
  case colors => subst h; rfl
  case size => subst h; rfl
  case zeros => subst h; rfl
  all_goals cases c <;> rfl

theorem classify_plain (ds : List OptDecl) {t : List Char} (h : PlainArg t) : classify ds t = some (.plain t) := by
  cases t with
  | nil => rfl
  | cons c t =>
    unfold classify
    split
    · rename_i heq; cases heq; exact absurd rfl h
    · rfl

theorem classifyAll_plain (ds : List OptDecl) {l r : List (List Char)} {ts : List ArgTok} (h : ∀ t ∈ l, PlainArg t) (hr : classifyAll ds r = some ts) :
    classifyAll ds (l ++ r) = some (l.map .plain ++ ts) := by
  induction l with
  | nil => exact hr
  | cons t l ih =>
    rw [List.cons_append, classifyAll, classify_plain ds (h t (by simp)), ih (fun t ht => h t (by simp [ht]))]
    rfl

/-- The tokens of some options. -/
def toks (o : Outside) (ps : List Piece) : List ArgTok := ps.flatMap (fun p => .opt (p.decl o) :: p.texts.map .plain)

theorem classifyAll_written (o : Outside) {c : Command} {ps : List Piece} {l r : List (List Char)} {ts : List ArgTok} (hw : Written ps l)
    (hb : ∀ p ∈ ps, p.Belongs c) (hp : ∀ p ∈ ps, ∀ t ∈ p.texts, PlainArg t) (hr : classifyAll (c.options o) r = some ts) :
    classifyAll (c.options o) (l ++ r) = some (toks o ps ++ ts) := by
  induction hw with
  | nil => exact hr
  | @short p ps l _ ih =>
    have ih := ih (fun q hq => hb q (by simp [hq])) (fun q hq => hp q (by simp [hq]))
    rw [List.cons_append, List.cons_append, classifyAll, classify_short o (hb p (by simp)), List.append_assoc, classifyAll_plain _ (hp p (by simp)) ih]
    simp [toks]
  | @long p ps l _ ih =>
    have ih := ih (fun q hq => hb q (by simp [hq])) (fun q hq => hp q (by simp [hq]))
    rw [List.cons_append, List.cons_append, classifyAll, classify_long o (hb p (by simp)), List.append_assoc, classifyAll_plain _ (hp p (by simp)) ih]
    simp [toks]

/-! ## The segments -/

theorem segments_plain (l : List (List Char)) (ts : List ArgTok) :
    segments (l.map .plain ++ ts) = (l ++ (segments ts).1, (segments ts).2) := by
  induction l with
  | nil => rfl
  | cons t l ih => simp [segments, ih]

/-- An option with its arguments. -/
def seg (o : Outside) (p : Piece) : OptDecl × List (List Char) := (p.decl o, p.texts)

theorem segments_toks (o : Outside) (ps : List Piece) : segments (toks o ps) = ([], ps.map (seg o)) := by
  induction ps with
  | nil => rfl
  | cons p ps ih =>
    have : toks o (p :: ps) = .opt (p.decl o) :: (p.texts.map .plain ++ toks o ps) := by simp [toks]
    rw [this]
    simp only [segments, segments_plain, ih, List.append_nil, List.map_cons, seg]

theorem segments_before (o : Outside) (ps : List Piece) (p : Piece) (s : List Char) (ts : List ArgTok) (hts : (segments ts).1 = []) :
    segments (toks o (ps ++ [p]) ++ .plain s :: ts) = ([], ps.map (seg o) ++ (p.decl o, p.texts ++ [s]) :: (segments ts).2) := by
  induction ps with
  | nil =>
    have : toks o ([] ++ [p]) ++ .plain s :: ts = .opt (p.decl o) :: (p.texts.map .plain ++ .plain s :: ts) := by simp [toks]
    rw [this]
    simp only [segments, segments_plain, hts, List.map_nil, List.nil_append]
  | cons q ps ih =>
    have : toks o (q :: ps ++ [p]) ++ .plain s :: ts = .opt (q.decl o) :: (q.texts.map .plain ++ (toks o (ps ++ [p]) ++ .plain s :: ts)) := by
      simp [toks]
    rw [this]
    simp only [segments, segments_plain, ih, List.append_nil, List.map_cons, seg, List.cons_append]

/-! ## The values -/

theorem take_of_means {o : Outside} {p : Piece} {v : ArgVal} (h : Means o p v) : (p.decl o).take p.texts = some (v, []) := by
  cases h with
  | file h => simp [Piece.decl, Piece.texts, fileOpt, OptDecl.take, Outside.openFile, h]
  | image h => simp [Piece.decl, Piece.texts, imageOpt, OptDecl.take, Outside.openFile, h]
  | labels => rfl
  | colors => rfl
  | size h => simp [Piece.decl, Piece.texts, sizeOpt, OptDecl.take, toIntArg, (pyInt_iff _ _).2 h]
  | zerosBare => rfl
  | zeros h => simp [Piece.decl, Piece.texts, zerosOpt, OptDecl.take, toSwitch, (C62_switch _ _).2 h]
  | timeoutBare => rfl
  | timeout h => simp [Piece.decl, Piece.texts, timeoutOpt, OptDecl.take, Outside.toFloat, h]
  | limitBare => rfl
  | limit h => simp [Piece.decl, Piece.texts, limitOpt, OptDecl.take, toIntArg, (pyInt_iff _ _).2 h]
  | showModel => rfl

/-- An option of the command with a positional argument leaves that argument alone, unless it could take another argument. -/
theorem take_more {o : Outside} {p : Piece} {v : ArgVal} (h : Means o p v) (hb : p.Belongs .cryptarithm) (hbare : ¬ p.Bare) (s : List Char) :
    (p.decl o).take (p.texts ++ [s]) = some (v, [s]) := by
  cases h with
  | zerosBare => exact absurd (.inl rfl) hbare
  | zeros h => simp [Piece.decl, Piece.texts, zerosOpt, OptDecl.take, toSwitch, (C62_switch _ _).2 h]
  | timeoutBare => exact absurd (.inr (.inl rfl)) hbare
  | timeout h => simp [Piece.decl, Piece.texts, timeoutOpt, OptDecl.take, Outside.toFloat, h]
  | limitBare => exact absurd (.inr (.inr rfl)) hbare
  | limit h => simp [Piece.decl, Piece.texts, limitOpt, OptDecl.take, toIntArg, (pyInt_iff _ _).2 h]
  | showModel => rfl
  | _ => simp [Piece.Belongs] at hb

theorem take_of_no_meaning {o : Outside} {p : Piece} (h : ∀ v, ¬ Means o p v) : (p.decl o).take p.texts = none := by
  have int : ∀ t, (∀ i, ¬ IntegerText t i) → toIntArg t = none := by
    intro t ht
    unfold toIntArg
    cases hp : pyInt t with
    | error e => rfl
    | ok i => exact absurd ((pyInt_iff _ _).1 hp) (ht i)
  have switch : ∀ t, (∀ b, ¬ Switch t b) → toSwitch t = none := by
    intro t ht
    unfold toSwitch
    cases hp : typeOnOff t with
    | error e => rfl
    | ok b => exact absurd ((C62_switch _ _).1 hp) (ht b)
  cases p with
  | file t =>
    have : o.readable t = false := by by_contra hc; exact h _ (.file (by simpa using hc))
    simp [Piece.decl, Piece.texts, fileOpt, OptDecl.take, Outside.openFile, this]
  | image t =>
    have : o.readable t = false := by by_contra hc; exact h _ (.image (by simpa using hc))
    simp [Piece.decl, Piece.texts, imageOpt, OptDecl.take, Outside.openFile, this]
  | labels t ts => exact absurd .labels (h _)
  | colors t ts => exact absurd .colors (h _)
  | size t => simp [Piece.decl, Piece.texts, sizeOpt, OptDecl.take, int t (fun i hi => h _ (.size hi))]
  | zeros t =>
    cases t with
    | none => exact absurd .zerosBare (h _)
    | some t => simp [Piece.decl, Piece.texts, zerosOpt, OptDecl.take, switch t (fun b hb => h _ (.zeros hb))]
  | timeout t =>
    cases t with
    | none => exact absurd .timeoutBare (h _)
    | some t =>
      have : o.isFloat t = false := by by_contra hc; exact h _ (.timeout (by simpa using hc))
      simp [Piece.decl, Piece.texts, timeoutOpt, OptDecl.take, Outside.toFloat, this]
  | limit t =>
    cases t with
    | none => exact absurd .limitBare (h _)
    | some t => simp [Piece.decl, Piece.texts, limitOpt, OptDecl.take, int t (fun i hi => h _ (.limit hi))]
  | showModel => exact absurd .showModel (h _)

/-! ## The parser -/

theorem options_append (g : List Dest) (a b : List (OptDecl × List (List Char))) : ∀ s : ParseState,
    s.options g (a ++ b) = (s.options g a).bind (fun s => s.options g b) := by
  induction a with
  | nil => intro s; rfl
  | cons x a ih =>
    intro s
    simp only [List.cons_append, ParseState.options]
    cases s.option g x with
    | none => rfl
    | some s => simp [ih]

theorem option_ok {o : Outside} {g : List Dest} {p : Piece} {v : ArgVal} (h : Means o p v) (s : ParseState)
    (hs : p.about ∈ g → ∀ d ∈ s.seen, d = p.about) :
    s.option g (seg o p) = some ⟨setDest s.space p.about v, s.positional, if p.about ∈ g then p.about :: s.seen else s.seen⟩ := by
  unfold ParseState.option
  simp only [seg, take_of_means h, decl_dest]
  rw [if_neg]
  · rfl
  · rintro ⟨h1, d, h2, h3⟩
    exact h3 (hs h1 d h2)

/-- What the parser makes of options that have a meaning. -/
theorem options_ok {o : Outside} {g : List Dest} : ∀ (ps : List Piece) (s : ParseState), (∀ p ∈ ps, ∃ v, Means o p v) →
    (∀ p ∈ ps, p.about ∈ g → (∀ d ∈ s.seen, d = p.about) ∧ ∀ q ∈ ps, q.about ∈ g → q.about = p.about) →
    ∃ s', s.options g (ps.map (seg o)) = some s' ∧ s'.positional = s.positional ∧ (∀ d ∈ s'.seen, d ∈ s.seen ∨ d ∈ g ∧ ∃ p ∈ ps, p.about = d) ∧
      ∀ d, (∃ pre p post v, ps = pre ++ p :: post ∧ p.about = d ∧ Means o p v ∧ (∀ q ∈ post, q.about ≠ d) ∧ s'.space d = some v) ∨
        ((∀ p ∈ ps, p.about ≠ d) ∧ s'.space d = s.space d) := by
  intro ps
  induction ps with
  | nil => intro s _ _; exact ⟨s, rfl, rfl, fun d hd => .inl hd, fun d => .inr ⟨by simp, rfl⟩⟩
  | cons p ps ih =>
    intro s hm hg
    obtain ⟨v, hv⟩ := hm p (by simp)
    have h1 := option_ok hv s (fun h => (hg p (by simp) h).1)
    obtain ⟨s', h2, h3, h4, h5⟩ := ih ⟨setDest s.space p.about v, s.positional, if p.about ∈ g then p.about :: s.seen else s.seen⟩
      (fun q hq => hm q (by simp [hq])) (fun q hq hqg => ⟨fun d hd => by
        by_cases hpg : p.about ∈ g
        · simp only [hpg, if_true, List.mem_cons] at hd
          rcases hd with rfl | hd
          · exact (hg q (by simp [hq]) hqg).2 p (by simp) hpg
          · exact (hg q (by simp [hq]) hqg).1 d hd
        · simp only [hpg, if_false] at hd
          exact (hg q (by simp [hq]) hqg).1 d hd, fun r hr hrg => (hg q (by simp [hq]) hqg).2 r (by simp [hr]) hrg⟩)
    refine ⟨s', ?_, h3, ?_, fun d => ?_⟩
    · rw [List.map_cons, ParseState.options, h1]; exact h2
    · intro d hd
      rcases h4 d hd with h | ⟨h, q, hq, he⟩
      · by_cases hpg : p.about ∈ g
        · simp only [hpg, if_true, List.mem_cons] at h
          rcases h with rfl | h
          · exact .inr ⟨hpg, p, by simp, rfl⟩
          · exact .inl h
        · simp only [hpg, if_false] at h; exact .inl h
      · exact .inr ⟨h, q, by simp [hq], he⟩
    · rcases h5 d with ⟨pre, q, post, u, e1, e2, e3, e4, e5⟩ | ⟨e1, e2⟩
      · exact .inl ⟨p :: pre, q, post, u, by rw [e1]; rfl, e2, e3, e4, e5⟩
      · by_cases hpd : p.about = d
        · exact .inl ⟨[], p, ps, v, rfl, hpd, hv, e1, by rw [e2]; simp [setDest, hpd]⟩
        · refine .inr ⟨?_, by rw [e2]; simp [setDest, Ne.symm hpd]⟩
          intro q hq
          rcases List.mem_cons.1 hq with rfl | hq
          · exact hpd
          · exact e1 q hq

theorem start_space (o : Outside) (c : Command) {d : Dest} (h : d ∈ c.functionArgs) : (c.start o).space d = some (byDefault d) := by
  cases c <;> simp only [Command.functionArgs, solveArgs, List.mem_cons, List.not_mem_nil, or_false] at h
  case knapsack => rcases h with rfl | rfl | rfl | rfl <;> rfl
  case sudoku => rcases h with rfl | rfl | rfl | rfl <;> rfl
  case graphLabeling => rcases h with rfl | rfl | rfl | rfl | rfl <;> rfl
  case asciiMapColoring => rcases h with rfl | rfl | rfl | rfl | rfl <;> rfl
  case nonogram => rcases h with rfl | rfl | rfl | rfl | rfl <;> rfl
  case queens => rcases h with rfl | rfl | rfl | rfl <;> rfl
  case einstein => rcases h with rfl | rfl | rfl <;> rfl
  case cryptarithm => rcases h with rfl | rfl | rfl | rfl | rfl <;> rfl

theorem parameters_eq (c : Command) : c.functionArgs = c.parameters := by cases c <;> rfl

theorem kwargsOf_ok {ns : Dest → Option ArgVal} : ∀ {ds : List Dest}, (∀ d ∈ ds, ∃ v, ns d = some v) →
    ∃ kw, kwargsOf ns ds = .ok kw ∧ kw.map Prod.fst = ds ∧ ∀ d v, (d, v) ∈ kw → ns d = some v := by
  intro ds
  induction ds with
  | nil => intro _; exact ⟨[], rfl, rfl, by simp⟩
  | cons d ds ih =>
    intro h
    obtain ⟨v, hv⟩ := h d (by simp)
    obtain ⟨kw, h1, h2, h3⟩ := ih (fun d' hd => h d' (by simp [hd]))
    refine ⟨(d, v) :: kw, by simp [kwargsOf, hv, h1, Except.map], by simp [h2], ?_⟩
    intro d' v' hm
    rcases List.mem_cons.1 hm with he | hm
    · cases he; exact hv
    · exact h3 d' v' hm

theorem find_command (c : Command) : Command.all.find? (fun c' => c'.word = c.word) = some c := by cases c <;> rfl

/-- The call once the arguments are parsed. -/
theorem main_ok {o : Outside} {c : Command} {args : List (List Char)} {ts : List ArgTok} {ns : Dest → Option ArgVal}
    (h1 : classifyAll (c.options o) args = some ts) (h2 : c.parse o ts = some ns) (h3 : ∀ d ∈ c.parameters, ∃ v, ns d = some v) :
    ∃ kw, mainCall o (c.word :: args) = .call c kw ∧ kw.map Prod.fst = c.parameters ∧ ∀ d v, (d, v) ∈ kw → ns d = some v := by
  obtain ⟨kw, e1, e2, e3⟩ := kwargsOf_ok (ns := ns) (ds := c.functionArgs) (by rw [parameters_eq]; exact h3)
  refine ⟨kw, ?_, by rw [e2, parameters_eq], e3⟩
  simp only [mainCall, find_command, h1, h2, callDemo, e1]
  rw [if_pos]
  rw [e2, parameters_eq]
  exact ⟨fun d hd => hd, fun d hd => hd⟩

theorem start_positional (o : Outside) (c : Command) : (c.start o).positional = c.positional ∧ (c.start o).seen = [] := ⟨rfl, rfl⟩

theorem not_source (p : Piece) : p.about ≠ .source := by cases p <;> simp [Piece.about]

theorem exclusive_cases {c : Command} {d : Dest} (h : d ∈ c.exclusive) : d = .inputFile ∨ d = .inputImage := by
  cases c <;> simp [Command.exclusive] at h
  exact h

section
variable {o : Outside} {c : Command} {ps : List Piece} {l : List (List Char)}

theorem exclusive_ok (hexcl : ¬ ((∃ t, .file t ∈ ps) ∧ ∃ t, .image t ∈ ps)) :
    ∀ p ∈ ps, p.about ∈ c.exclusive → ∀ q ∈ ps, q.about ∈ c.exclusive → q.about = p.about := by
  have hf : ∀ p : Piece, p.about = .inputFile → ∃ t, p = .file t := by intro p h; cases p <;> simp [Piece.about] at h; exact ⟨_, rfl⟩
  have hi : ∀ p : Piece, p.about = .inputImage → ∃ t, p = .image t := by intro p h; cases p <;> simp [Piece.about] at h; exact ⟨_, rfl⟩
  intro p hp hpe q hq hqe
  rcases exclusive_cases hpe with h1 | h1 <;> rcases exclusive_cases hqe with h2 | h2
  · rw [h1, h2]
  · obtain ⟨t, rfl⟩ := hf p h1
    obtain ⟨t', rfl⟩ := hi q h2
    exact absurd ⟨⟨t, hp⟩, ⟨t', hq⟩⟩ hexcl
  · obtain ⟨t, rfl⟩ := hi p h1
    obtain ⟨t', rfl⟩ := hf q h2
    exact absurd ⟨⟨t', hq⟩, ⟨t, hp⟩⟩ hexcl
  · rw [h1, h2]

/-- C73: a command with any options of its own, in any order, with short or long names, calls the demo of that command. Its parameters are exactly those of the
demo, and each of them has the value of the last option about it, or the default. -/
theorem C73_call (hw : Written ps l) (hb : ∀ p ∈ ps, p.Belongs c) (hp : ∀ p ∈ ps, ∀ t ∈ p.texts, PlainArg t) (hm : ∀ p ∈ ps, ∃ v, Means o p v)
    (hexcl : ¬ ((∃ t, .file t ∈ ps) ∧ ∃ t, .image t ∈ ps)) :
    ∃ kw, mainCall o (c.word :: l) = .call c kw ∧ kw.map Prod.fst = c.parameters ∧ ∀ d v, (d, v) ∈ kw → Asked o ps d v := by
  have h1 := classifyAll_written o hw hb hp (r := []) rfl
  simp only [List.append_nil] at h1
  obtain ⟨s', e1, _, _, e4⟩ := options_ok (g := c.exclusive) ps (c.start o) hm (fun p hp h => ⟨by simp [start_positional],
    fun q hq h' => exclusive_ok hexcl p hp h q hq h'⟩)
  have h2 : c.parse o (toks o ps) = some s'.space := by
    simp only [Command.parse, segments_toks, ParseState.plains, Option.bind_some, e1, Option.map_some]
  have h4 : ∀ d ∈ c.parameters, ∃ v, s'.space d = some v ∧ Asked o ps d v := by
    intro d hd
    rcases e4 d with ⟨pre, p, post, v, a1, a2, a3, a4, a5⟩ | ⟨a1, a2⟩
    · exact ⟨v, a5, .inl ⟨pre, p, post, a1, a2, a3, a4⟩⟩
    · exact ⟨_, by rw [a2, start_space o c (by rwa [parameters_eq])], .inr ⟨a1, rfl⟩⟩
  obtain ⟨kw, k1, k2, k3⟩ := main_ok h1 h2 (fun d hd => ⟨_, (h4 d hd).choose_spec.1⟩)
  refine ⟨kw, k1, k2, fun d v hv => ?_⟩
  have hd : d ∈ c.parameters := by rw [← k2]; exact List.mem_map_of_mem (f := Prod.fst) hv
  obtain ⟨v', h5, h6⟩ := h4 d hd
  rw [k3 d v hv] at h5
  cases h5
  exact h6

end

section
variable {o : Outside} {pre post : List Piece} {l r : List (List Char)} {s : List Char}

/-- C73, with the equation of a cryptarithm between the options: it is passed on as `source`, unless the option before it could take it as its argument. -/
theorem C73_source (hw : Written pre l) (hw' : Written post r) (hb : ∀ p ∈ pre ++ post, p.Belongs .cryptarithm)
    (hp : ∀ p ∈ pre ++ post, ∀ t ∈ p.texts, PlainArg t) (hm : ∀ p ∈ pre ++ post, ∃ v, Means o p v) (hs : PlainArg s)
    (hlast : ∀ p, pre.getLast? = some p → ¬ p.Bare) :
    ∃ kw, mainCall o (Command.cryptarithm.word :: l ++ s :: r) = .call .cryptarithm kw ∧ kw.map Prod.fst = Command.cryptarithm.parameters ∧
      (Dest.source, ArgVal.text s) ∈ kw ∧ ∀ d v, (d, v) ∈ kw → d ≠ .source → Asked o (pre ++ post) d v := by
  have hr := classifyAll_written o hw' (fun p hp => hb p (by simp [hp])) (fun p hq => hp p (by simp [hq])) (r := []) rfl
  simp only [List.append_nil] at hr
  have h1 : classifyAll (Command.cryptarithm.options o) (l ++ s :: r) = some (toks o pre ++ .plain s :: toks o post) :=
    classifyAll_written o hw (fun p hp => hb p (by simp [hp])) (fun p hq => hp p (by simp [hq])) (by
      rw [classifyAll, classify_plain _ hs, hr]; rfl)
  have hex : ∀ p : Piece, p.about ∈ Command.cryptarithm.exclusive → False := fun p h => by simp [Command.exclusive] at h
  obtain ⟨s1, e1, e2, e3, e4⟩ := options_ok (g := Command.cryptarithm.exclusive) pre (Command.cryptarithm.start o) (fun p hq => hm p (by simp [hq]))
    (fun p _ h => (hex p h).elim)
  obtain ⟨s3, f1, _, _, f4⟩ := options_ok (g := Command.cryptarithm.exclusive) post
    { s1 with space := setDest s1.space .source (.text s), positional := none } (fun p hq => hm p (by simp [hq])) (fun p _ h => (hex p h).elim)
  have hplain : s1.plains [s] = some { s1 with space := setDest s1.space .source (.text s), positional := none } := by
    simp only [ParseState.plains]
    rw [show s1.positional = some Dest.source from e2]
  have h2 : Command.cryptarithm.parse o (toks o pre ++ .plain s :: toks o post) = some s3.space := by
    rcases List.eq_nil_or_concat pre with rfl | ⟨pre', p, rfl⟩
    · simp only [List.map_nil, ParseState.options, Option.some.injEq] at e1
      subst e1
      have hseg : segments (toks o [] ++ .plain s :: toks o post) = ([s], post.map (seg o)) := by
        show segments (.plain s :: toks o post) = _
        simp only [segments, segments_toks]
      simp only [Command.parse, hseg, hplain, Option.bind_some, f1, Option.map_some]
    · rw [List.concat_eq_append] at e1 hm hb hlast ⊢
      simp only [Command.parse, segments_before o pre' p s (toks o post) (by rw [segments_toks]), segments_toks, ParseState.plains, Option.bind_some]
      rw [List.map_append, options_append] at e1
      rw [options_append]
      cases h0 : (Command.cryptarithm.start o).options Command.cryptarithm.exclusive (pre'.map (seg o)) with
      | none => rw [h0] at e1; simp at e1
      | some s0 =>
        rw [h0] at e1
        simp only [Option.bind_some, List.map_cons, List.map_nil, ParseState.options] at e1 ⊢
        obtain ⟨v, hv⟩ := hm p (by simp)
        have hstep : s0.option Command.cryptarithm.exclusive (p.decl o, p.texts ++ [s]) =
            (s0.option Command.cryptarithm.exclusive (seg o p)).bind (fun s' => s'.plains [s]) := by
          rw [option_ok hv s0 (fun h => (hex p h).elim)]
          unfold ParseState.option
          simp only [take_more hv (hb p (by simp)) (hlast p (by simp)) s, decl_dest]
          rw [if_neg (fun h => hex p h.1)]
          rfl
        rw [hstep]
        cases h0' : s0.option Command.cryptarithm.exclusive (seg o p) with
        | none => rw [h0'] at e1; simp at e1
        | some s' =>
          rw [h0'] at e1
          simp only [Option.bind_some, Option.some.injEq] at e1
          subst e1
          simp only [Option.bind_some, hplain, f1, Option.map_some]
  have h4 : ∀ d ∈ Command.cryptarithm.parameters, ∃ v, s3.space d = some v ∧ ((d = .source ∧ v = .text s) ∨ (d ≠ .source ∧ Asked o (pre ++ post) d v)) := by
    intro d hd
    rcases f4 d with ⟨a, p, b, v, a1, a2, a3, a4, a5⟩ | ⟨a1, a2⟩
    · exact ⟨v, a5, .inr ⟨by rw [← a2]; exact not_source p, .inl ⟨pre ++ a, p, b, by rw [a1]; simp, a2, a3, a4⟩⟩⟩
    · by_cases hds : d = .source
      · subst hds
        exact ⟨.text s, by rw [a2]; simp [setDest], .inl ⟨rfl, rfl⟩⟩
      · simp only [setDest, hds, if_false] at a2
        rcases e4 d with ⟨a, p, b, v, b1, b2, b3, b4, b5⟩ | ⟨b1, b2⟩
        · refine ⟨v, by rw [a2, b5], .inr ⟨hds, .inl ⟨a, p, b ++ post, by rw [b1]; simp, b2, b3, ?_⟩⟩⟩
          intro q hq
          rcases List.mem_append.1 hq with hq | hq
          · exact b4 q hq
          · exact a1 q hq
        · refine ⟨_, by rw [a2, b2, start_space o _ (by rwa [parameters_eq])], .inr ⟨hds, .inr ⟨?_, rfl⟩⟩⟩
          intro q hq
          rcases List.mem_append.1 hq with hq | hq
          · exact b1 q hq
          · exact a1 q hq
  obtain ⟨kw, k1, k2, k3⟩ := main_ok h1 h2 (fun d hd => ⟨_, (h4 d hd).choose_spec.1⟩)
  refine ⟨kw, k1, k2, ?_, fun d v hv hds => ?_⟩
  · have : Dest.source ∈ kw.map Prod.fst := by rw [k2]; decide
    obtain ⟨⟨d, v⟩, hv, rfl⟩ := List.mem_map.1 this
    obtain ⟨v', h5, h6⟩ := h4 .source (by decide)
    rw [k3 .source v hv] at h5
    cases h5
    rcases h6 with ⟨_, rfl⟩ | ⟨h6, _⟩
    · exact hv
    · exact absurd rfl h6
  · have hd : d ∈ Command.cryptarithm.parameters := by rw [← k2]; exact List.mem_map_of_mem (f := Prod.fst) hv
    obtain ⟨v', h5, h6⟩ := h4 d hd
    rw [k3 d v hv] at h5
    cases h5
    rcases h6 with ⟨h6, _⟩ | ⟨_, h6⟩
    · exact absurd h6 hds
    · exact h6

end

/-! ## Errors -/

theorem seen_grows {g : List Dest} {x : OptDecl × List (List Char)} {s s' : ParseState} (h : s.option g x = some s') :
    (∀ d ∈ s.seen, d ∈ s'.seen) ∧ (x.1.dest ∈ g → x.1.dest ∈ s'.seen) := by
  unfold ParseState.option at h
  split at h
  · cases h
  · rename_i v r _
    split at h
    · cases h
    · have : s'.seen = if x.1.dest ∈ g then x.1.dest :: s.seen else s.seen := by
        match r with
        | [] => cases h; rfl
        | [t] =>
          simp only [ParseState.plains] at h
          split at h
          · cases h; rfl
          · cases h
        | _ :: _ :: _ => cases h
      rw [this]
      constructor
      · intro d hd; split
        · simp [hd]
        · exact hd
      · intro hg; simp [hg]

theorem seen_options {g : List Dest} : ∀ {L : List (OptDecl × List (List Char))} {s s' : ParseState}, s.options g L = some s' →
    (∀ d ∈ s.seen, d ∈ s'.seen) ∧ ∀ x ∈ L, x.1.dest ∈ g → x.1.dest ∈ s'.seen := by
  intro L
  induction L with
  | nil => intro s s' h; cases h; exact ⟨fun d hd => hd, by simp⟩
  | cons x L ih =>
    intro s s' h
    simp only [ParseState.options] at h
    cases h1 : s.option g x with
    | none => rw [h1] at h; cases h
    | some s1 =>
      rw [h1] at h
      obtain ⟨i1, i2⟩ := ih h
      obtain ⟨j1, j2⟩ := seen_grows h1
      refine ⟨fun d hd => i1 d (j1 d hd), fun y hy hg => ?_⟩
      rcases List.mem_cons.1 hy with rfl | hy
      · exact i1 _ (j2 hg)
      · exact i2 y hy hg

section
variable {o : Outside} {c : Command} {ps : List Piece} {l : List (List Char)}

theorem exit_of {args : List (List Char)} {ts : List ArgTok} (h1 : classifyAll (c.options o) args = some ts) (h2 : c.parse o ts = none) :
    mainCall o (c.word :: args) = .exit := by
  simp only [mainCall, find_command, h1, h2]

/-- C73, errors: no demo is called if an option has an argument that cannot be converted, or a file that cannot be opened, … -/
theorem C73_bad_value (hw : Written ps l) (hb : ∀ p ∈ ps, p.Belongs c) (hp : ∀ p ∈ ps, ∀ t ∈ p.texts, PlainArg t)
    (hbad : ∃ p ∈ ps, ∀ v, ¬ Means o p v) : mainCall o (c.word :: l) = .exit := by
  have h1 := classifyAll_written o hw hb hp (r := []) rfl
  simp only [List.append_nil] at h1
  refine exit_of h1 ?_
  obtain ⟨p, hpm, hno⟩ := hbad
  obtain ⟨a, b, rfl⟩ := List.append_of_mem hpm
  have hnone : ∀ s : ParseState, s.option c.exclusive (seg o p) = none := fun s => by
    unfold ParseState.option
    simp only [seg, take_of_no_meaning hno]
  simp only [Command.parse, segments_toks, ParseState.plains, Option.bind_some, List.map_append, options_append, List.map_cons]
  cases (c.start o).options c.exclusive (a.map (seg o)) with
  | none => rfl
  | some s => simp only [Option.bind_some, ParseState.options, hnone, Option.bind_none, Option.map_none]

/-- … if both an input file and an input image are given, … -/
theorem C73_both_inputs (hw : Written ps l) (hb : ∀ p ∈ ps, p.Belongs .nonogram) (hp : ∀ p ∈ ps, ∀ t ∈ p.texts, PlainArg t)
    (hboth : (∃ t, .file t ∈ ps) ∧ ∃ t, .image t ∈ ps) : mainCall o (Command.nonogram.word :: l) = .exit := by
  have h1 := classifyAll_written o hw hb hp (r := []) rfl
  simp only [List.append_nil] at h1
  refine exit_of h1 ?_
  have key : ∀ (p q : Piece) (a b : List Piece), ps = a ++ q :: b → p ∈ a → p.about ∈ Command.nonogram.exclusive → q.about ∈ Command.nonogram.exclusive →
      p.about ≠ q.about → Command.nonogram.parse o (toks o ps) = none := by
    rintro p q a b rfl hpa hpg hqg hne
    simp only [Command.parse, segments_toks, ParseState.plains, Option.bind_some, List.map_append, options_append, List.map_cons]
    cases h0 : (Command.nonogram.start o).options Command.nonogram.exclusive (a.map (seg o)) with
    | none => rfl
    | some s =>
      have hseen := (seen_options h0).2 (seg o p) (List.mem_map_of_mem hpa) (by rw [show (seg o p).1.dest = p.about from decl_dest o p]; exact hpg)
      rw [show (seg o p).1.dest = p.about from decl_dest o p] at hseen
      have hnone : s.option Command.nonogram.exclusive (seg o q) = none := by
        unfold ParseState.option
        split
        · rfl
        · rw [if_pos]
          rw [show (seg o q).1.dest = q.about from decl_dest o q]
          exact ⟨hqg, p.about, hseen, hne⟩
      simp only [Option.bind_some, ParseState.options, hnone, Option.bind_none, Option.map_none]
  obtain ⟨⟨t, ht⟩, ⟨t', ht'⟩⟩ := hboth
  obtain ⟨a, b, rfl⟩ := List.append_of_mem ht
  rcases List.mem_append.1 ht' with h | h
  · exact key (.image t') (.file t) a b rfl h (by simp [Piece.about, Command.exclusive]) (by simp [Piece.about, Command.exclusive]) (by simp [Piece.about])
  · rcases List.mem_cons.1 h with h | h
    · cases h
    · obtain ⟨a', b', rfl⟩ := List.append_of_mem h
      exact key (.file t) (.image t') (a ++ .file t :: a') b' (by simp) (by simp) (by simp [Piece.about, Command.exclusive]) (by simp [Piece.about, Command.exclusive]) (by simp [Piece.about])

/-- … if there is an argument that no option takes, for all commands other than the cryptarithm, … -/
theorem C73_surplus {t : List Char} (hc : c ≠ .cryptarithm) (ht : PlainArg t) (hw : Written ps l) (hb : ∀ p ∈ ps, p.Belongs c)
    (hp : ∀ p ∈ ps, ∀ t ∈ p.texts, PlainArg t) : mainCall o (c.word :: t :: l) = .exit := by
  have h1 := classifyAll_written o hw hb hp (r := []) rfl
  simp only [List.append_nil] at h1
  refine exit_of (ts := .plain t :: toks o ps) (by rw [classifyAll, classify_plain _ ht, h1]; rfl) ?_
  have : c.positional = none := by cases c <;> first | rfl | exact absurd rfl hc
  simp only [Command.parse, segments, segments_toks, ParseState.plains, start_positional, this, Option.bind_none]

/-- … if the command is unknown. Without a command the help is printed. -/
theorem C73_command (name : List Char) (h : PlainArg name) (hno : ∀ c : Command, c.word ≠ name) :
    mainCall o (name :: l) = .exit ∧ mainCall o [] = .help := by
  refine ⟨?_, rfl⟩
  have : Command.all.find? (fun c => c.word = name) = none := by
    rw [List.find?_eq_none]
    intro c _
    simpa using hno c
  simp only [mainCall, this]
  rw [if_neg h]

/-- The equation directly after `-z` is taken for the argument of the option: `cryptarithm -z "A+B==C"` is an error. -/
theorem C73_swallowed {s : List Char} (hs : PlainArg s) (hno : ∀ b, ¬ Switch s b) :
    mainCall o [Command.cryptarithm.word, ['-', 'z'], s] = .exit := by
  refine C73_bad_value (ps := [.zeros (some s)]) (l := [['-', 'z'], s]) (.short (p := .zeros (some s)) .nil) ?_ ?_ ⟨.zeros (some s), by simp, ?_⟩
  · intro p hp; simp at hp; subst hp; rfl
  · intro p hp t ht; simp at hp; subst hp; simp [Piece.texts] at ht; subst ht; exact hs
  · intro v hv; cases hv; exact hno _ (by assumption)

end

/-! ## Examples -/

def exOutside : Outside := ⟨fun t => t = "0.5".toList, fun t => t = "in.json".toList⟩

example : mainCall exOutside ["sudoku".toList, "-l".toList, "-i".toList, "in.json".toList, "--limit".toList, "3".toList, "-t".toList, "0.5".toList] =
    .call .sudoku [(.inputFile, .file "in.json".toList), (.timeout, .float "0.5".toList), (.limit, .int 3), (.showModel, .bool false)] := by rfl

example : mainCall exOutside ["graph_labeling".toList, "-L".toList, "a".toList, "b".toList, "-s".toList] =
    .call .graphLabeling [(.inputFile, .none), (.labels, .texts ["a".toList, "b".toList]), (.timeout, .none), (.limit, .none), (.showModel, .bool true)] := by rfl

example : mainCall exOutside ["cryptarithm".toList, "-z".toList, "off".toList, "A+B==C".toList, "-l".toList] =
    .call .cryptarithm [(.source, .text "A+B==C".toList), (.avoidLeadingZeros, .bool false), (.timeout, .none), (.limit, .infinity), (.showModel, .bool false)] := by rfl

example : mainCall exOutside ["cryptarithm".toList, "-z".toList, "A+B==C".toList] = .exit := by rfl
example : mainCall exOutside ["queens".toList, "8".toList] = .exit := by rfl
example : mainCall exOutside ["nonogram".toList, "-i".toList, "in.json".toList, "-I".toList, "in.json".toList] = .exit := by rfl

-- the hypotheses of `C73_call`
example : Written [.limit none, .file "in.json".toList, .limit (some "3".toList)] ["-l".toList, "-i".toList, "in.json".toList, "--limit".toList, "3".toList] :=
  .short (p := .limit none) (.short (p := .file "in.json".toList) (.long (p := .limit (some "3".toList)) .nil))

end Satisfy.Props
