import Verif.ApiProxy

/-!
# Specification of the web proxy of the jobs

A job writes the address of its web server in a file of its directory; a GET on `/proxy/<job>` makes the proxy (Traefik 1) lead the paths below `<base>/<job>` to that address.
-/

namespace Oar.ApiProxy.Spec

open Oar.Tools Oar.ApiProxy

/-- Who can use the proxy of a job. -/
def Allowed (user : List Char) (j : Job) : Prop := user = j.user ∨ user = txt "oar" ∨ user = txt "root"

/-- The file of a job: `OAR.<job>.proxy.json` in its directory. -/
def FileOf (j : Job) (f : List Char) : Prop := f = j.directory ++ txt "/OAR." ++ str j.id ++ txt ".proxy.json"

/-- The base of the addresses: a path of printable ASCII characters. -/
def GoodBase (base : List Char) : Prop := (∃ t, base = '/' :: t) ∧ ∀ c ∈ base, 16 ≤ c.toNat ∧ c.toNat < 128

/-- The rule of a path: the entry of the frontends with that prefix, the entry of the backends. -/
def frontAt (r : Rules) (k : List Char) : Option Front := ((r.frontends.getD []).find? (fun p => p.1 == k)).map (·.2)
def backAt (r : Rules) (k : List Char) : Option (List Char) := ((r.backends.getD []).find? (fun p => p.1 == k)).map (·.2)

/-- The rule of a job: where its paths lead. -/
def ruleOf (base : List Char) (r : Rules) (id : Nat) : Option (Front × List Char) :=
  match frontAt r (frontendOf (prefixOf base id)), backAt r (backendOf (prefixOf base id)) with
  | some f, some u => some (f, u)
  | _, _ => none

/-- Traefik 1: a rule `PathPrefix:p` is for the paths that begin with `p`. -/
def Matches (r : Rules) (path : List Char) (f : Front) : Prop :=
  (∃ k, (k, f) ∈ r.frontends.getD []) ∧ ∃ p, f.rule = txt "PathPrefix:" ++ p ∧ p <+: path

/-- Traefik 1: a path is led by the longest rule to the server of its backend. -/
def Led (r : Rules) (path url : List Char) : Prop :=
  ∃ f, Matches r path f ∧ (∀ g, Matches r path g → g.rule.length ≤ f.rule.length) ∧ (f.backend, url) ∈ r.backends.getD []

/-- The paths of a job: its prefix, alone or followed by a slash. -/
def Below (base : List Char) (id : Nat) (path : List Char) : Prop := path = prefixOf base id ∨ ∃ t, path = prefixOf base id ++ '/' :: t

/-- The rules that the API and the cleaner can make, from an empty file. -/
inductive Made (base : List Char) : Rules → Prop where
  | empty : Made base {}
  | add (r : Rules) (id : Nat) (t : List Char) : Made base r → Made base (addRule r (prefixOf base id) t)
  | del (r : Rules) (id : Nat) : Made base r → Made base (delRule r (prefixOf base id))

/-- The address of a host, without path. -/
def Host (n : List Char) : Prop := n ≠ [] ∧ ∀ c ∈ n, c ≠ '/' ∧ c ≠ '?' ∧ c ≠ '#'

end Oar.ApiProxy.Spec
