import Verif.Keys

/-!
# Specification of the job keys

With the option `-k` each job has a pair of keys: the private key given in the line, else that of the file given (or of `OAR_JOB_KEY_FILE`), as its user can read it, else
a generated one; the public key is that of the private key, in one line.
-/

namespace Oar.Keys.Spec

open Oar.Tools Oar.Script Oar.Keys

/-- The file of the key. -/
def keyFile (e : Env) (o : KeyOpts) : List Char := if o.inl = [] ∧ o.file = [] then e.keyFile else o.file

/-- The private key and the public one given by `ssh-keygen`, for the `i`-th job. -/
def pair (w : World) (e : Env) (i : Nat) (o : KeyOpts) : Option (List Char × List Char) :=
  if o.inl ≠ [] then (w.pubOf o.inl).map (fun p => (o.inl, p))
  else if keyFile e o ≠ [] then (w.read e.user (keyFile e o)).bind (fun c => (w.pubOf c).map (fun p => (c, p)))
  else w.gen i

/-- A public key in one line: `k` is the line, that starts with its type. -/
def OneLine (k pub : List Char) : Prop :=
  '\n' ∉ k ∧ (∃ t s b, (t = txt "ssh-rsa" ∨ t = txt "ssh-dss") ∧ k = t ++ s :: b ∧ isSpace s = true ∧ b ≠ []) ∧ ∃ n, pub = k ++ List.replicate n '\n'

/-- The jobs of commands, with keys. -/
def jobsWith (next : Nat) (keys : Nat → List Char × List Char) : Nat → List (List Char) → List Job
  | _, [] => []
  | i, c :: cs => ⟨next + i, c, (keys i).1, (keys i).2⟩ :: jobsWith next keys (i + 1) cs

end Oar.Keys.Spec
