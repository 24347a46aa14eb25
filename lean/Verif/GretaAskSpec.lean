import Verif.GretaAsk
import Verif.ConnectSpec

/-!
# Specification of the idle nodes and of the commands of the energy saving
-/

namespace Oar.GretaAsk.Spec

open Oar.GretaAsk Oar.Greta Oar.Tools

/-- The node `n` has a resource which is or becomes alive. -/
def IsAlive (db : Db) (p : Res → Bool) (n : String) : Prop := ∃ r ∈ db.res, r.net = n ∧ p r = true ∧ (r.state = "Alive" ∨ r.next = "Alive")

/-- A job in the state `st` has a resource of the node `n` which is or becomes alive. -/
def Holds (db : Db) (n st : String) : Prop :=
  ∃ r ∈ db.res, r.net = n ∧ (r.state = "Alive" ∨ r.next = "Alive") ∧ ∃ m, (m, r.id) ∈ db.assigned ∧ ∃ j, (m, j) ∈ db.molds ∧ (j, st) ∈ db.jobs

/-- The states of a job that is not ended. -/
def Live (st : String) : Prop :=
  st ∈ ["Waiting", "Hold", "toLaunch", "toError", "toAckReservation", "Launching", "Running", "Suspended", "Resuming", "Finishing"]

instance (st : String) : Decidable (Live st) := inferInstanceAs (Decidable (st ∈ _))

/-- What `echo` writes: its words separated by spaces, then an end of line unless the first word is `-n`. Words with a backslash are not described. -/
def echo : List (List Char) → List Char
  | ['-', 'n'] :: ws => (ws.intersperse (txt " ")).flatten
  | ws => (ws.intersperse (txt " ")).flatten ++ ['\n']

/-- The text makes a shell execute the program `prog`, without argument, with `input` on its standard input. -/
def Feeds (text prog input : List Char) : Prop :=
  ∃ ws, ShellQuotes.commands text = some [(.newline, Shell.Tok.word (txt "echo") :: ws.map Shell.Tok.word), (.pipe, [.word prog])] ∧ input = echo ws

/-- The name of the event of a command. -/
def kindOf : Cmd → String
  | .halt => "HALT_NODE"
  | .wakeup => "WAKEUP_NODE"

/-- The date of the last event of a kind about a host. -/
def LastDate (kind : String) (evs : List Ev) (n : String) (d : Int) : Prop :=
  (∃ e ∈ evs, e.kind = kind ∧ n ∈ e.hosts ∧ e.date = d) ∧ ∀ e ∈ evs, e.kind = kind → n ∈ e.hosts → e.date ≤ d

end Oar.GretaAsk.Spec
