import Verif.Media

/-!
# Specification of the access to the files with the API

From the documentation of the API: GET gives the content of a file (its last lines with `tail`), POST creates it, POST chmod changes its mode, DELETE removes it, ls lists a
directory; all as the authenticated user; `~` is the home directory.
-/

namespace Oar.Media.Spec

open Oar.Tools Oar.Media

/-- The file that the user names, from the root. -/
def named (s : List Char) : List Char := '/' :: s

/-- A name without any of the characters `$`, `,`, the backquote and the space. -/
def Plain (s : List Char) : Prop := ∀ c ∈ s, c ≠ '$' ∧ c ≠ ',' ∧ c ≠ '`' ∧ c ≠ ' '

/-- A text made of lines: each ends with a line end, but perhaps the last one. -/
def AreLines (ls : List (List Char)) : Prop :=
  (∀ l ∈ ls, ∃ t, (∀ c ∈ t, c ≠ '\n') ∧ (l = t ++ ['\n'] ∨ l = t)) ∧ (∀ l ∈ ls.dropLast, l.getLast? = some '\n') ∧ ∀ l ∈ ls, l ≠ []

/-- The requests. -/
inductive Request where
  | get (name : List Char) (tail : Option Int)
  | chmod (name mode : List Char)
  | delete (name : List Char)
  | post (name : List Char) (force : Bool) (text : List Char)
  | ls (name : List Char) (offset : Int) (limit : Nat)

/-- The name given in a request. -/
def Request.name : Request → List Char
  | .get n _ => n
  | .chmod n _ => n
  | .delete n => n
  | .post n _ _ => n
  | .ls n _ _ => n

/-- What the server does. -/
def serve (w : World) (fs : Files) (user : List Char) : Request → Result
  | .get n t => get w fs user n t
  | .chmod n m => chmod w fs user n m
  | .delete n => delete w fs user n
  | .post n f t => post fs user n f (upload t)
  | .ls n o l => ls w fs user n o l

end Oar.Media.Spec
