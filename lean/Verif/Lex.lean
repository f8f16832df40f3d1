import Verif.Compile
/-!
# Characters and tokens

`str` of an int, `join`, and the part of Python's tokenizer (ASCII) that is needed for the texts the code hands to `eval`
(cryptarithm.py:79, expression.py:61). Words are all `name` tokens here; `keywordTok` (Source.lean) makes operators of `and`, `or`, `not`.
-/

namespace Satisfy

/-- `str.isdigit` on the characters of a word. -/
def isDig (c : Char) : Bool := '0' ≤ c && c ≤ '9'

/-- The character of a digit. -/
def digitChar (d : Nat) : Char := Char.ofNat ('0'.toNat + d)

/-- `str(n)`, with fuel. -/
def natStrGo : Nat → Nat → List Char
  | 0, _ => []
  | f + 1, n => if n < 10 then [digitChar n] else natStrGo f (n / 10) ++ [digitChar (n % 10)]

/-- `str(n)`. -/
def natStr (n : Nat) : List Char := natStrGo (n + 1) n

/-- `sep.join(parts)`. -/
def joinChars (sep : List Char) : List (List Char) → List Char
  | [] => []
  | [p] => p
  | p :: ps => p ++ sep ++ joinChars sep ps

/-- A token that may go on. -/
inductive Pending where
  | start
  | num (n : Nat)
  | name (s : List Char)      -- reversed
  | op (c : Char)             -- one of `* / = < > !`

/-- End of a token. -/
def Pending.flush : Pending → Option (List Tok)
  | .start => some []
  | .num n => some [.num n]
  | .name s => some [.name (String.ofList s.reverse)]
  | .op c =>
    if c = '*' then some [.op .star] else if c = '/' then some [.op .slash]
    else if c = '<' then some [.op .lt] else if c = '>' then some [.op .gt] else none

/-- Tokens of one character. -/
def charTok (c : Char) : Option Tok :=
  if c = '(' then some .lpar else if c = ')' then some .rpar else if c = '[' then some .lbrk else if c = ']' then some .rbrk
  else if c = ',' then some .comma else if c = '+' then some (.op .plus) else if c = '-' then some (.op .minus)
  else if c = '%' then some (.op .percent) else if c = '&' then some (.op .amp) else if c = '|' then some (.op .bar)
  else if c = '^' then some (.op .caret) else if c = ':' then some .colon
  else none

/-- Operators of two characters. -/
def pairTok (a b : Char) : Option Tok :=
  if a = '*' ∧ b = '*' then some (.op .dstar) else if a = '/' ∧ b = '/' then some (.op .dslash)
  else if a = '=' ∧ b = '=' then some (.op .eq) else if a = '!' ∧ b = '=' then some (.op .ne)
  else if a = '<' ∧ b = '=' then some (.op .le) else if a = '>' ∧ b = '=' then some (.op .ge) else none

/-- The characters that may start an operator of two characters. -/
def isOpStart (c : Char) : Bool := c = '*' || c = '/' || c = '=' || c = '<' || c = '>' || c = '!'

/-- A new token starts with `c`; `ts` are the tokens before. -/
def lexFresh (c : Char) (ts : List Tok) : Option (List Tok × Pending) :=
  if c = ' ' then some (ts, .start)
  else if isDig c then some (ts, .num (c.toNat - '0'.toNat))
  else if c.isAlpha || c = '_' then some (ts, .name [c])
  else if isOpStart c then some (ts, .op c)
  else match charTok c with
    | some t => some (ts ++ [t], .start)
    | none => none

/-- Reading `c`: the tokens that end, and the token that goes on. An int with leading zeros is not valid; letters cannot follow a number. -/
def lexStep (p : Pending) (c : Char) : Option (List Tok × Pending) :=
  match p with
  | .num n =>
    if isDig c then (if n = 0 then none else some ([], .num (10 * n + (c.toNat - '0'.toNat))))
    else if c.isAlpha || c = '_' then none
    else lexFresh c [.num n]
  | .name s =>
    if isDig c || c.isAlpha || c = '_' then some ([], .name (c :: s))
    else lexFresh c [.name (String.ofList s.reverse)]
  | .op a => match pairTok a c with
    | some t => some ([t], .start)
    | none => match Pending.flush (.op a) with
      | none => none
      | some ts => lexFresh c ts
  | .start => lexFresh c []

/-- Python's tokens of a text; `none`: not a valid text. -/
def lexGo : List Char → Pending → Option (List Tok)
  | [], p => p.flush
  | c :: cs, p => match lexStep p c with
    | none => none
    | some (ts, p') => (lexGo cs p').map (ts ++ ·)

end Satisfy
