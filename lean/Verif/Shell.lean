import Verif.Tools

/-!
# C105: a fragment of the language of the shell

A separate specification of what a POSIX shell executes, for the texts made of words, simple quotes, `$( )`, comments and the separators `;`, newline, `&`, `&&`, `||`, `|`.
Double quotes, backslashes, backquotes, `<` and bare parentheses are outside of the fragment (`none`). The words are taken before the expansions (`$PROC` stays `$PROC`).
Here-documents, keywords (`if`, `while`, ...), functions and aliases are not described.
-/

namespace Oar.Shell

/-- The separators of the commands. -/
inductive Sep
  | semi
  | newline
  | background
  | andIf
  | orIf
  | pipe
  deriving DecidableEq

/-- The tokens: words, separators, and `>`. -/
inductive Tok
  | word (w : List Char)
  | sep (s : Sep)
  | out
  deriving DecidableEq

/-- Where the reading of the text is. -/
inductive Mode
  | plain
  | quote
  | paren (depth : Nat)
  | comment
  | amp
  | bar
  deriving DecidableEq

/-- The state of the reading: the mode, the word being read, the tokens read. -/
structure St where
  mode : Mode := .plain
  cur : Option (List Char) := none
  toks : List Tok := []
  deriving DecidableEq

/-- The tokens read and the word being read. -/
def St.flush (st : St) : List Tok :=
  match st.cur with
  | none => st.toks
  | some w => st.toks ++ [.word w]

/-- The word being read with one more character. -/
def St.push (st : St) (c : Char) : Option (List Char) :=
  match st.cur with
  | none => some [c]
  | some w => some (w ++ [c])

/-- A character outside of quotes. -/
def plainStep (st : St) (c : Char) : Option St :=
  if c = ' ' ∨ c = '\t' then some ⟨.plain, none, st.flush⟩
  else if c = '\n' then some ⟨.plain, none, st.flush ++ [.sep .newline]⟩
  else if c = ';' then some ⟨.plain, none, st.flush ++ [.sep .semi]⟩
  else if c = '&' then some ⟨.amp, none, st.flush⟩
  else if c = '|' then some ⟨.bar, none, st.flush⟩
  else if c = '>' then some ⟨.plain, none, st.flush ++ [.out]⟩
  else if c = '\'' then some ⟨.quote, some (st.cur.getD []), st.toks⟩
  else if c = '#' ∧ st.cur = none then some ⟨.comment, none, st.toks⟩
  else if c = '(' then (if (st.cur.getD []).getLast? = some '$' then some ⟨.paren 0, st.push c, st.toks⟩ else none)
  else if c = '"' ∨ c = '\\' ∨ c = '`' ∨ c = '<' ∨ c = ')' then none
  else some ⟨.plain, st.push c, st.toks⟩

/-- The next character of the text. `none`: the text is outside of the fragment. -/
def step (st : St) (c : Char) : Option St :=
  match st.mode with
  | .plain => plainStep st c
  | .quote => if c = '\'' then some ⟨.plain, st.cur, st.toks⟩ else some ⟨.quote, st.push c, st.toks⟩
  | .paren d =>
    if c = '(' then some ⟨.paren (d + 1), st.push c, st.toks⟩
    else if c = ')' then some ⟨if d = 0 then .plain else .paren (d - 1), st.push c, st.toks⟩
    else if c = '\'' ∨ c = '"' ∨ c = '\\' ∨ c = '`' ∨ c = '#' then none
    else some ⟨.paren d, st.push c, st.toks⟩
  | .comment => if c = '\n' then some ⟨.plain, none, st.toks ++ [.sep .newline]⟩ else some st
  | .amp => if c = '&' then some ⟨.plain, none, st.toks ++ [.sep .andIf]⟩ else plainStep ⟨.plain, none, st.toks ++ [.sep .background]⟩ c
  | .bar => if c = '|' then some ⟨.plain, none, st.toks ++ [.sep .orIf]⟩ else plainStep ⟨.plain, none, st.toks ++ [.sep .pipe]⟩ c

/-- The characters of a text, one after the other. -/
def feed (st : St) : List Char → Option St
  | [] => some st
  | c :: cs =>
    match step st c with
    | none => none
    | some st' => feed st' cs

/-- The end of the text. -/
def finish (st : St) : Option (List Tok) :=
  match st.mode with
  | .plain => some st.flush
  | .comment => some st.toks
  | .amp => some (st.toks ++ [.sep .background])
  | _ => none

/-- The tokens of a text. -/
def lex (text : List Char) : Option (List Tok) :=
  match feed {} text with
  | none => none
  | some st => finish st

/-- A command: its words and redirections. -/
abbrev Cmd := List Tok

/-- The commands, each with the separator before it. An empty command is only allowed before a newline and at the end. -/
def parse : List Tok → Sep → Cmd → Option (List (Sep × Cmd))
  | [], p, [] => if p = .semi ∨ p = .newline ∨ p = .background then some [] else none
  | [], p, c => some [(p, c)]
  | .sep s :: r, p, [] => if s = .newline then parse r p [] else none
  | .sep s :: r, p, c => (parse r s []).map (fun l => (p, c) :: l)
  | t :: r, p, c => parse r p (c ++ [t])

/-- The commands of a text. -/
def commands (text : List Char) : Option (List (Sep × Cmd)) :=
  match lex text with
  | none => none
  | some t => parse t .newline []

/-- The commands executed, in order. `ok h c`: the command `c` succeeds after the commands `h`. `last`: the last command has succeeded. -/
def run (ok : List Cmd → Cmd → Bool) : List Cmd → Bool → List (Sep × Cmd) → List Cmd
  | h, _, [] => h
  | h, last, (s, c) :: r =>
    if (s = .andIf ∧ last = false) ∨ (s = .orIf ∧ last = true) then run ok h last r
    else run ok (h ++ [c]) (ok h c) r

/-- The commands executed by `bash -c '...'`, given to the shell of a node. -/
def onNode (ok : List Cmd → Cmd → Bool) (text : List Char) : Option (List Cmd) :=
  match commands text with
  | some [(_, [.word b, .word o, .word s])] => if b = Tools.txt "bash" ∧ o = Tools.txt "-c" then (commands s).map (run ok [] true) else none
  | _ => none

end Oar.Shell
