import Verif.Keys
import Mathlib.Logic.Function.Basic

/-!
# Model of simultaneous submissions with job keys

`job_key_management` (`oar/lib/submission.py:348-529`) step by step: its temporary files are named after the process (l. 388-390), and the threads of the API server belong to one
process. The keys given in a file are left out (Keys); the environment does not name a file of key. A write, an `ssh-keygen` or a read is one step; the text written is not truncated
first (l. 425-427: `os.open` without `O_TRUNC`).
-/

namespace Oar.KeyRace

open Oar.Tools Oar.Keys

/-- Where a submission is. -/
inductive Pc
  | start
  | extract
  | readPriv
  | readPub
  | rmPriv
  | rmPub
  | done (r : KeyRes)
  | raised
  | dead
  deriving DecidableEq

/-- A submission: its process, its number (for the generation), the key given in the request (empty: a key is generated), where it is, what it has read. -/
structure Sub where
  pid : Nat
  num : Nat
  inl : List Char
  pc : Pc := .start
  priv : List Char := []
  pub : List Char := []
  deriving DecidableEq

/-- The files `oarsub_<pid>.jobkey` and `oarsub_<pid>.jobkey.pub` of each process, and the submissions. -/
structure St where
  files : Nat → Option (List Char) × Option (List Char)
  subs : Nat → Sub

/-- Writing at the beginning of a file which is not truncated. -/
def overlay (new : List Char) : Option (List Char) → List Char
  | none => new
  | some old => new ++ old.drop new.length

/-- One step of a submission: its new state and the files of its process. -/
def act (w : World) (f : Option (List Char) × Option (List Char)) (s : Sub) : Sub × (Option (List Char) × Option (List Char)) :=
  match s.pc with
  | .start =>
    if s.inl ≠ [] then ({ s with pc := .extract }, (some (overlay s.inl f.1), f.2))                       -- l. 424-428
    else if f.1.isSome then ({ s with pc := .done (.error (-14)) }, f)                                     -- l. 476-491: ssh-keygen does not overwrite
    else match w.gen s.num with
      | none => ({ s with pc := .done (.error (-14)) }, f)
      | some p => ({ s with pc := .readPriv }, (some p.1, some p.2))
  | .extract =>                                                                                           -- l. 440-469
    match f.1 with
    | none => ({ s with pc := .done (.error (-14)) }, (none, none))
    | some k => match w.pubOf k with
      | none => ({ s with pc := .done (.error (-14)) }, (none, none))
      | some p => ({ s with pc := .readPriv }, (f.1, some p))
  | .readPriv => match f.1 with                                                                           -- l. 494-498
    | none => ({ s with pc := .done (.error (-14)) }, f)
    | some k => ({ s with pc := .readPub, priv := k }, f)
  | .readPub => match f.2 with                                                                            -- l. 500-504
    | none => ({ s with pc := .done (.error (-14)) }, f)
    | some k => ({ s with pc := .rmPriv, pub := k }, f)
  | .rmPriv => if f.1.isSome then ({ s with pc := .rmPub }, (none, f.2)) else ({ s with pc := .raised }, f)    -- l. 506
  | .rmPub =>                                                                                             -- l. 507-527
    if f.2.isSome then ({ s with pc := .done (lastChecks s.priv s.pub) }, (f.1, none)) else ({ s with pc := .raised }, f)
  | _ => (s, f)

/-- What happens: a step of a submission, or the end of a process (killed, interrupted) which leaves its files. -/
inductive Ev
  | step (i : Nat)
  | crash (pid : Nat)

/-- The submissions that are between their first and last steps. -/
def Sub.inside (s : Sub) : Bool := match s.pc with
  | .extract | .readPriv | .readPub | .rmPriv | .rmPub => true
  | _ => false

def next (w : World) (st : St) : Ev → St
  | .step i => ⟨Function.update st.files (st.subs i).pid (act w (st.files (st.subs i).pid) (st.subs i)).2, Function.update st.subs i (act w (st.files (st.subs i).pid) (st.subs i)).1⟩
  | .crash p => ⟨st.files, fun i => if (st.subs i).pid = p ∧ (st.subs i).inside = true then { st.subs i with pc := .dead } else st.subs i⟩

def run (w : World) (st : St) (es : List Ev) : St := es.foldl (next w) st

end Oar.KeyRace
