import Verif.Shell
import Verif.Signal
import Verif.CliProps

/-!
# C105: specification of the signals sent to the jobs
-/

namespace Oar.Signal

open Oar.Jobs Oar.Cli Oar.Tools Oar.Shell

/-- A character of the names of signals and of files. -/
def Plain (c : Char) : Prop := c.isAlphanum = true ∨ c ∈ ['/', '.', '_', '-', '+']

/-- A non-empty word of such characters. -/
def PlainWord (w : List Char) : Prop := w ≠ [] ∧ ∀ c ∈ w, Plain c

/-- The options are plain texts. -/
def PlainConf (cf : Conf) : Prop := (∀ c ∈ cf.dir, Plain c) ∧ ∀ c ∈ cf.pidName, Plain c

/-- A word of a command. -/
def w (s : String) : Tok := .word (txt s)

/-- What is to be executed on the node to send the signal `sig` to oarexec: the process is read in its file, continued, then signalled. -/
def killCommands (pid sig : List Char) : List Cmd :=
  [[w "test", w "-e", .word pid], [.word (txt "PROC=$(cat " ++ pid ++ txt ")")], [w "kill", w "-s", w "CONT", w "$PROC"], [w "kill", w "-s", .word sig, w "$PROC"]]

/-- With a signal of the user, it is first written in a file. -/
def userCommands (file pid sig u : List Char) : List Cmd := [w "echo", .word u, .out, .word file] :: killCommands pid sig

/-- `ex` is the execution of the commands `cs`, each one when all the commands before it have succeeded. -/
def Chained (ok : List Cmd → Cmd → Bool) (cs ex : List Cmd) : Prop :=
  ex = cs.take ex.length ∧ ∀ i < cs.length, (i < ex.length ↔ ∀ j < i, ∀ c, cs[j]? = some c → ok (cs.take j) c = true)

end Oar.Signal
