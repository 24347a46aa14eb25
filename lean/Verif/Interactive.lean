import Verif.Tools

/-!
# Model of the dialogue between the server and `oarsub -I` / `oarsub -r`

The texts are ASCII; each message arrives whole on its own connection (`recv` reads at most 1024 bytes of it).
-/

namespace Oar.Interactive
open Oar.Tools

/-- The messages of the server to the client of a submission. -/
inductive Note
  /-- oar/kao/meta_sched.py:1244-1255: date of the round, predicted start, message of the job. -/
  | prediction (now start msg : List Char)
  /-- oar/modules/node_change_state.py:293-295. -/
  | held
  /-- oar/modules/bipbip.py:200. -/
  | starting
  /-- oar/modules/bipbip.py:548. -/
  | goodJob
  /-- oar/modules/bipbip.py:361, 567, 614, 634: what follows `ERROR: `. -/
  | failure (what : List Char)
  /-- oar/kao/meta_sched.py:1280: the message of a job in error. -/
  | refusal (msg : List Char)
  /-- oar/kao/meta_sched.py:1281. -/
  | badJob
  /-- oar/kao/meta_sched.py:1295. -/
  | goodReservation
  /-- oar/modules/leon.py:111. -/
  | killed
  deriving DecidableEq

/-- The text given to `notify_tcp_socket` by the callers cited in `Note`. -/
def Note.text : Note → List Char
  | .prediction now start msg => txt "[" ++ now ++ txt "] Start prediction: " ++ start ++ txt " (" ++ msg ++ txt ")"
  | .held => txt "Start prediction: undefined (Hold)"
  | .starting => txt "Starting..."
  | .goodJob => txt "GOOD JOB"
  | .failure what => txt "ERROR: " ++ what
  | .refusal msg => msg ++ ['\n']
  | .badJob => txt "BAD JOB" ++ ['\n']
  | .goodReservation => txt "GOOD RESERVATION" ++ ['\n']
  | .killed => txt "JOB_KILLED"

/-- Models `notify_tcp_socket` (oar/lib/tools.py:202-222): what is sent. -/
def wire (n : Note) : List Char := n.text ++ ['\n']

/-- `conn.recv(1024)`, then `message[:-1]` (oar/cli/oarsub.py:694-695, 711-712). -/
def received (m : List Char) : List Char := (m.take 1024).dropLast

/-- `re.search(r"\](.*)$", answer).group(1)` (oar/cli/oarsub.py:715): what follows the first `]` up to the end of the text, or of its last line when it ends with a newline. -/
def afterBracket : List Char → Option (List Char)
  | [] => none
  | c :: r =>
    if c = ']' then
      if '\n' ∉ r then some r
      else if r.getLast? = some '\n' ∧ '\n' ∉ r.dropLast then some r.dropLast
      else afterBracket r
    else afterBracket r

/-- The messages that end the wait (oar/cli/oarsub.py:722-728). -/
def ends (a : List Char) : Bool := a == txt "GOOD JOB" || a == txt "BAD JOB" || a == txt "JOB KILL" || (txt "ERROR").isPrefixOf a

/-- How the wait ends: the client connects to the job, exits with a status, or still waits. -/
inductive End
  | connects
  | exits (code : Int)
  | waits
  deriving DecidableEq

/-- What is printed of a message and the new `prev_str` (oar/cli/oarsub.py:715-720). -/
def shown (prev a : List Char) : List (List Char) × List Char :=
  match afterBracket a with
  | some g => if g ≠ prev then ([a], g) else if a ≠ txt "GOOD JOB" then ([a], prev) else ([], prev)
  | none => if a ≠ txt "GOOD JOB" then ([a], prev) else ([], prev)

/-- The `while True` loop (oar/cli/oarsub.py:706-733): the texts printed and the end; `prev` is `prev_str`. -/
def loop : List Char → List (List Char) → List (List Char) × End
  | _, [] => ([], .waits)
  | prev, m :: ms =>
    let a := received m
    if ends a then ((shown prev a).1, if a = txt "GOOD JOB" then .connects else .exits 11)
    else ((shown prev a).1 ++ (loop (shown prev a).2 ms).1, (loop (shown prev a).2 ms).2)

/-- The wait of `oarsub -I` (oar/cli/oarsub.py:704-733). -/
def listen (ms : List (List Char)) : List (List Char) × End := loop [] ms

/-- `rstrip()`. -/
def rstrip (t : List Char) : List Char := (t.reverse.dropWhile (fun c => c == ' ' || c == '\t' || c == '\n' || c == '\r' || c == '\x0b' || c == '\x0c')).reverse

/-- The wait of `oarsub -r` (oar/cli/oarsub.py:687-702): the first message received decides; `none`: nothing has come. -/
def reservation : List (List Char) → Option Bool
  | [] => none
  | m :: _ => some (rstrip (received m) == txt "GOOD RESERVATION")

end Oar.Interactive
