import Verif.Shell

/-!
# C111: a fragment of the language of the shell, with double quotes and backslashes

A separate specification of the words and separators read by a POSIX shell. Unlike `Oar.Shell`, the expansions are outside of the fragment: an unescaped `$`, backquote, parenthesis, `<` or pattern
gives `none`; so the words are those given to the commands. Keywords, functions and aliases are not described.
-/

namespace Oar.ShellQuotes
open Oar.Shell (Tok Sep Cmd parse)

/-- Where the reading of the text is. -/
inductive Mode
  | plain
  | single
  | double
  | escPlain
  | escDouble
  | comment
  | amp
  | bar
  deriving DecidableEq

/-- The state of the reading: the mode, the word being read, the tokens read. -/
structure St where
  mode : Mode := .plain
  cur : Option (List Char) := none
  toks : List Tok := []
  deriving DecidableEq

/-- The tokens read and the word being read. -/
def St.flush (st : St) : List Tok :=
  match st.cur with
  | none => st.toks
  | some w => st.toks ++ [.word w]

/-- The word being read with more characters. -/
def St.push (st : St) (l : List Char) : Option (List Char) := some (st.cur.getD [] ++ l)

/-- A character outside of quotes. -/
def plainStep (st : St) (c : Char) : Option St :=
  if c = ' ' ∨ c = '\t' then some ⟨.plain, none, st.flush⟩
  else if c = '\n' then some ⟨.plain, none, st.flush ++ [.sep .newline]⟩
  else if c = ';' then some ⟨.plain, none, st.flush ++ [.sep .semi]⟩
  else if c = '&' then some ⟨.amp, none, st.flush⟩
  else if c = '|' then some ⟨.bar, none, st.flush⟩
  else if c = '>' then some ⟨.plain, none, st.flush ++ [.out]⟩
  else if c = '\'' then some ⟨.single, st.push [], st.toks⟩
  else if c = '"' then some ⟨.double, st.push [], st.toks⟩
  else if c = '\\' then some ⟨.escPlain, st.cur, st.toks⟩
  else if c = '#' ∧ st.cur = none then some ⟨.comment, none, st.toks⟩
  else if c ∈ ['$', '`', '(', ')', '<', '*', '?', '[', '{', '~'] then none
  else some ⟨.plain, st.push [c], st.toks⟩

/-- The next character of the text. `none`: the text is outside of the fragment. -/
def step (st : St) (c : Char) : Option St :=
  match st.mode with
  | .plain => plainStep st c
  | .single => if c = '\'' then some ⟨.plain, st.cur, st.toks⟩ else some ⟨.single, st.push [c], st.toks⟩
  | .double =>
    if c = '"' then some ⟨.plain, st.cur, st.toks⟩
    else if c = '\\' then some ⟨.escDouble, st.cur, st.toks⟩
    else if c = '$' ∨ c = '`' then none
    else some ⟨.double, st.push [c], st.toks⟩
  | .escPlain => if c = '\n' then none else some ⟨.plain, st.push [c], st.toks⟩
  | .escDouble =>
    if c = '\n' then some ⟨.double, st.cur, st.toks⟩
    else if c = '$' ∨ c = '`' ∨ c = '"' ∨ c = '\\' then some ⟨.double, st.push [c], st.toks⟩
    else some ⟨.double, st.push ['\\', c], st.toks⟩
  | .comment => if c = '\n' then some ⟨.plain, none, st.toks ++ [.sep .newline]⟩ else some st
  | .amp => if c = '&' then some ⟨.plain, none, st.toks ++ [.sep .andIf]⟩ else plainStep ⟨.plain, none, st.toks ++ [.sep .background]⟩ c
  | .bar => if c = '|' then some ⟨.plain, none, st.toks ++ [.sep .orIf]⟩ else plainStep ⟨.plain, none, st.toks ++ [.sep .pipe]⟩ c

/-- The characters of a text, one after the other. -/
def feed (st : St) : List Char → Option St
  | [] => some st
  | c :: cs =>
    match step st c with
    | none => none
    | some st' => feed st' cs

/-- The end of the text. -/
def finish (st : St) : Option (List Tok) :=
  match st.mode with
  | .plain => some st.flush
  | .comment => some st.toks
  | .amp => some (st.toks ++ [.sep .background])
  | _ => none

/-- The commands of a text, each with the separator before it. -/
def commands (text : List Char) : Option (List (Sep × Cmd)) :=
  match feed {} text with
  | none => none
  | some st =>
    match finish st with
    | none => none
    | some t => parse t .newline []

end Oar.ShellQuotes
