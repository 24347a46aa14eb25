import Verif.Notify

/-!
# Specification of the notifications

From the manual of oarsub: `--notify "[tag1,tag2]mail:name@domain.com"` or `--notify "[tag1]exec:/path/to/script args"`; the tags are RUNNING, END, ERROR, INFO, SUSPENDED
and RESUMING; without tags all of them are sent.
-/

namespace Oar.Notify.Spec

open Oar.Tools Oar.Script Oar.Notify

/-- The documented tags. -/
def documented : List String := ["RUNNING", "END", "ERROR", "INFO", "SUSPENDED", "RESUMING"]

/-- The changes of state that are notified, with their tags. -/
def stateTags : List (String × String) := [("Suspended", "SUSPENDED"), ("Resuming", "RESUMING"), ("Running", "RUNNING"), ("Terminated", "END"), ("Error", "ERROR")]

/-- What the user writes: the tags (none: no brackets), mail or exec, the address or the command; and the blanks at the four places where they are allowed. -/
structure Request where
  tags : Option (List String)
  mail : Bool
  target : List Char
  blank0 : List Char := []
  blank1 : List Char := []
  blank2 : List Char := []
  blank3 : List Char := []

/-- The tags separated by commas. -/
def commas : List String → List Char
  | [] => []
  | [t] => t.toList
  | t :: u :: r => t.toList ++ ',' :: commas (u :: r)

/-- The part in brackets. -/
def bracket (r : Request) : List Char :=
  match r.tags with
  | none => []
  | some ts => '[' :: (r.blank1 ++ commas ts ++ ']' :: r.blank2)

/-- The text of the option. -/
def Request.text (r : Request) : List Char :=
  r.blank0 ++ bracket r ++ (if r.mail then "mail".toList else "exec".toList) ++ r.blank3 ++ ':' :: r.target

/-- The characters allowed in a command: letters, digits, `_ . / -` and space. -/
def Command (t : List Char) : Prop :=
  ∀ c ∈ t, c ∈ "abcdefghijklmnopqrstuvwxyzABCDEFGHIJKLMNOPQRSTUVWXYZ0123456789_./ -".toList

/-- A request of the manual: documented tags, at least one between brackets; an address without colon and bracket; a command with the allowed characters. -/
def Request.Valid (r : Request) : Prop :=
  (∀ ts, r.tags = some ts → ts ≠ [] ∧ ∀ t ∈ ts, t ∈ documented) ∧ r.target ≠ [] ∧
  (r.mail = true → ∀ c ∈ r.target, c ≠ ':' ∧ c ≠ ']') ∧ (r.mail = false → Command r.target) ∧
  (∀ c ∈ r.blank0 ++ r.blank1 ++ r.blank2 ++ r.blank3, c = ' ' ∨ c = '\t')

/-- Whether a state is asked. -/
def Request.Asks (r : Request) (state : String) : Prop := ∀ ts, r.tags = some ts → state ∈ ts

/-- What is sent for a state that is asked. -/
def Request.sent (r : Request) : Action := if r.mail then .mail r.target else .exec r.target

end Oar.Notify.Spec
