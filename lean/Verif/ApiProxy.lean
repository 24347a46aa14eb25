import Verif.Tools

/-!
# Model of the web proxy of the jobs

`proxy` of `oar/api/routers/proxy.py`, the rules of the proxy and their file (`oar/api/proxy_utils.py`), the cleaner of the rules (`oar/cli/oarproxycleaner.py`).
-/

namespace Oar.ApiProxy

open Oar.Tools

/-! ## Names of the rules -/

/-- A letter or a digit (`string.ascii_letters + string.digits`, the characters that `escapism.escape` keeps). -/
def alnum (c : Char) : Bool := c.isDigit || ('a'.toNat ≤ c.toNat && c.toNat ≤ 'z'.toNat) || ('A'.toNat ≤ c.toNat && c.toNat ≤ 'Z'.toNat)

/-- A hexadecimal digit, in upper case. -/
def hex (d : Nat) : Char := if d < 10 then Char.ofNat (48 + d) else Char.ofNat (55 + d)

/-- The value of a hexadecimal digit, in either case. -/
def hexVal (c : Char) : Option Nat :=
  if c.isDigit then some (c.toNat - 48)
  else if 'a'.toNat ≤ c.toNat ∧ c.toNat ≤ 'f'.toNat then some (c.toNat - 87)
  else if 'A'.toNat ≤ c.toNat ∧ c.toNat ≤ 'F'.toNat then some (c.toNat - 55)
  else none

/-- `'_%X' % byte` (the library escapism, called at oar/api/proxy_utils.py:11). Simplified to one byte: the characters above 127 are not modelled. -/
def escapeChar (c : Char) : List Char :=
  if c.toNat < 16 then ['_', hex c.toNat] else ['_', hex (c.toNat / 16), hex (c.toNat % 16)]

/-- `escapism.escape(proxy_path)` (oar/api/proxy_utils.py:11). -/
def escape (s : List Char) : List Char := s.flatMap (fun c => if alnum c then [c] else escapeChar c)

/-- `escapism.unescape(k)` (oar/cli/oarproxycleaner.py:55): each `_` followed by two letters or digits is read as a byte in hexadecimal; `none`: `int(…, 16)` raises. -/
def unescape : List Char → Option (List Char)
  | [] => some []
  | [a] => some [a]
  | [a, b] => some [a, b]
  | a :: b :: c :: r =>
    if a = '_' ∧ alnum b = true ∧ alnum c = true then
      match hexVal b, hexVal c with
      | some x, some y => (unescape r).map (fun t => Char.ofNat (16 * x + y) :: t)
      | _, _ => none
    else (unescape (b :: c :: r)).map (fun t => a :: t)

/-- `frontend_backend_traefik` (oar/api/proxy_utils.py:10-14). -/
def frontendOf (path : List Char) : List Char := txt "frontend_" ++ escape path
def backendOf (path : List Char) : List Char := txt "backend_" ++ escape path

/-! ## The rules -/

/-- A frontend of the rules (oar/api/proxy_utils.py:23-27); `passHostHeader` is left out. -/
structure Front where
  backend : List Char
  rule : List Char
  deriving DecidableEq

/-- The content of the file of rules: the frontends, and the backends with the URL of their only server (oar/api/proxy_utils.py:17-34). `none`: the table is absent. -/
structure Rules where
  frontends : Option (List (List Char × Front)) := none
  backends : Option (List (List Char × List Char)) := none
  deriving DecidableEq

/-- `d[k] = v` of a dictionary. -/
def put {α : Type} (k : List Char) (v : α) : List (List Char × α) → List (List Char × α)
  | [] => [(k, v)]
  | p :: r => if p.1 = k then (k, v) :: r else p :: put k v r

/-- `add_traefik_rule` (oar/api/proxy_utils.py:17-34). -/
def addRule (r : Rules) (path target : List Char) : Rules :=
  { frontends := some (put (frontendOf path) { backend := backendOf path, rule := txt "PathPrefix:" ++ path } (r.frontends.getD []))
    backends := some (put (backendOf path) target (r.backends.getD [])) }

/-- `del_traefik_rule` (oar/api/proxy_utils.py:37-43). -/
def delRule (r : Rules) (path : List Char) : Rules :=
  { frontends := r.frontends.map (fun l => l.filter (fun p => p.1 != frontendOf path))
    backends := r.backends.map (fun l => l.filter (fun p => p.1 != backendOf path)) }

/-! ## The address of the target -/

/-- The characters of a scheme (`urllib.parse.scheme_chars`). -/
def schemeChar (c : Char) : Bool := alnum c || c == '+' || c == '-' || c == '.'

/-- A letter in lower case. -/
def lower (c : Char) : Char := if 'A'.toNat ≤ c.toNat ∧ c.toNat ≤ 'Z'.toNat then Char.ofNat (c.toNat + 32) else c

/-- The scheme and the rest of an address (`urllib.parse.urlsplit`): what is before the first colon, when it begins with a letter and has only characters of a scheme. -/
def scheme (s : List Char) : List Char × List Char :=
  let a := s.takeWhile (· != ':')
  let r := s.dropWhile (· != ':')
  if r ≠ [] ∧ a ≠ [] ∧ a.all schemeChar = true ∧ (a.head?.map (fun c => alnum c && !c.isDigit)) = some true then (a.map lower, r.drop 1) else ([], s)

/-- The network location (`urllib.parse._splitnetloc`): after `//`, until the first of `/?#`. -/
def netloc : List Char → List Char
  | '/' :: '/' :: r => r.takeWhile (fun c => c != '/' && c != '?' && c != '#')
  | _ => []

/-- The blanks and control characters removed by `urlsplit`: all those at the beginning, and the tabulations and line ends. -/
def cleanUrl (s : List Char) : List Char := (s.dropWhile (fun c => c.toNat ≤ 32)).filter (fun c => c != '\t' && c != '\n' && c != '\r')

/-- `urlparse(url)` (oar/api/routers/proxy.py:102): the scheme and the network location; `none`: a bracket alone raises. The check of the addresses between brackets is not
modelled. -/
def urlparse (s : List Char) : Option (List Char × List Char) :=
  let x := scheme (cleanUrl s)
  let n := netloc x.2
  if n.contains '[' != n.contains ']' then none else some (x.1, n)

/-! ## The request -/

/-- A job, as read by `get_job` (oar/lib/job_handling.py:1472-1479). -/
structure Job where
  id : Nat
  user : List Char
  directory : List Char
  state : String

/-- What `json.loads` makes of a file (oar/api/routers/proxy.py:86-102): an error; an object without the key `url`; anything for which the test, the key or `urlparse` raises;
an address. -/
inductive Content where
  | invalid
  | noUrl
  | raises
  | url (s : List Char)

/-- The configuration (oar/lib/configuration.py:107-109). -/
structure Config where
  proxy : List Char
  base : List Char
  entry : List Char

/-- The files, as a user sees them through oardodo: `test -e`, `test -r`, `cat`. -/
structure World where
  exist : List Char → List Char → Bool
  readable : List Char → List Char → Bool
  content : List Char → List Char → Content

/-- The answers: an error with its code, a redirection. -/
inductive Answer where
  | error (code : Nat)
  | redirect (url : List Char)
  deriving DecidableEq

/-- The file written by the job (oar/api/routers/proxy.py:63). -/
def proxyFile (j : Job) : List Char := j.directory ++ txt "/OAR." ++ digits j.id ++ txt ".proxy.json"

/-- The prefix of the addresses of a job (oar/api/routers/proxy.py:120, oar/cli/oarproxycleaner.py:65-67). -/
def prefixOf (base : List Char) (id : Nat) : List Char := base ++ '/' :: digits id

/-- The target of a job, or the code of the error (oar/api/routers/proxy.py:51-118). -/
def target (c : Config) (db : List Job) (w : World) (user : List Char) (id : Nat) : Except Nat (List Char) :=
  if c.proxy ≠ txt "traefik" then .error 404
  else match db.find? (fun j => j.id == id) with
    | none => .error 404
    | some j =>
      if j.user ≠ user ∧ user ≠ txt "oar" ∧ user ≠ txt "root" then .error 403
      else if w.exist user (proxyFile j) = false then .error 404
      else if w.readable user (proxyFile j) = false then .error 403
      else match w.content user (proxyFile j) with
        | .invalid => .error 500
        | .noUrl => .error 404
        | .raises => .error 500
        | .url s =>
          match urlparse s with
          | none => .error 500
          | some x =>
            if x.2 = [] then .error 404
            else if x.1 ≠ txt "http" then .error 404
            else .ok (x.1 ++ txt "://" ++ x.2)

/-- `proxy` (oar/api/routers/proxy.py:37-140) for an authenticated user: the answer and the file of rules (`none`: it does not exist, or it cannot be read). -/
def proxy (c : Config) (db : List Job) (w : World) (user : List Char) (id : Nat) (file : Option Rules) : Answer × Option Rules :=
  match target c db w user id with
  | .error n => (.error n, file)
  | .ok t =>
    match file with
    | none => (.error 500, none)
    | some r => (.redirect (c.entry ++ prefixOf c.base id), some (addRule r (prefixOf c.base id) t))

/-! ## The cleaner -/

/-- `escapism.unescape(k).split("/")[-1]` (oar/cli/oarproxycleaner.py:55). -/
def keyJob (k : List Char) : Option (List Char) := (unescape k).map (fun t => (split '/' t).getLastD [])

/-- The numbers of the jobs of the rules (oar/cli/oarproxycleaner.py:54-57, oar/lib/job_handling.py:2688-2696): `none` when a name cannot be decoded or when the database refuses
the text as an integer. -/
def keyIds : List (List Char × Front) → Option (List Int)
  | [] => some []
  | p :: r =>
    match (keyJob p.1).bind pyInt, keyIds r with
    | some i, some l => some (i :: l)
    | _, _ => none

/-- Whether a job is over (oar/cli/oarproxycleaner.py:63). -/
def over (j : Job) : Bool := j.state == "Error" || j.state == "Terminated"

/-- One round of the cleaner (oar/cli/oarproxycleaner.py:39-72): the new rules; `none`: an exception ends the cleaner. The jobs are the rows of the table in the order of
their numbers. -/
def clean (base : List Char) (db : List Job) (file : Option Rules) : Option (Option Rules) :=
  match file with
  | none => some none
  | some r =>
    match r.frontends with
    | none => some (some r)
    | some fs =>
      match keyIds fs with
      | none => none
      | some ids => some (some ((db.filter (fun j => ids.contains (j.id : Int) && over j)).foldl (fun r j => delRule r (prefixOf base j.id)) r))

/-! ## Requests at the same time -/

/-- Where a thread is, between the lock and its release (oar/api/routers/proxy.py:122-137). -/
inductive Pc where
  | waiting
  | locked
  | loaded (r : Rules)
  | saved
  | finished
  | dead
  deriving DecidableEq

/-- A thread: its process, what it does to the rules, where it is. -/
structure Thread where
  proc : Nat
  update : Rules → Rules
  pc : Pc

/-- The process that has the lock, the file of rules, the threads, and the threads that wrote the file, the last one first (this last part is only there to state
the theorems). -/
structure Sys where
  owner : Option Nat
  file : Rules
  threads : List Thread
  log : List Nat

/-- One step of a thread. `fcntl.lockf` (oar/api/proxy_utils.py:46-50) is a lock of the process: it is granted when no other process has it; `close` (oar/api/proxy_utils.py:53-55)
gives up the lock of the process. The file is replaced at once (`atomic_writing`). -/
def stepThread (s : Sys) (i : Nat) (t : Thread) : Sys :=
  match t.pc with
  | .waiting =>
    if s.owner = none ∨ s.owner = some t.proc then { s with owner := some t.proc, threads := s.threads.set i { t with pc := .locked } } else s
  | .locked => { s with threads := s.threads.set i { t with pc := .loaded s.file } }
  | .loaded r => { s with file := t.update r, threads := s.threads.set i { t with pc := .saved }, log := i :: s.log }
  | .saved =>
    { s with owner := if s.owner = some t.proc then none else s.owner, threads := s.threads.set i { t with pc := .finished } }
  | .finished => s
  | .dead => s

/-- A step of the system: one thread goes on, or a process dies (its lock is given up, its threads stop). -/
inductive Event where
  | step (i : Nat)
  | crash (p : Nat)

def event (s : Sys) : Event → Sys
  | .step i =>
    match s.threads[i]? with
    | none => s
    | some t => stepThread s i t
  | .crash p =>
    { s with
      owner := if s.owner = some p then none else s.owner
      threads := s.threads.map (fun t => if t.proc = p ∧ t.pc ≠ .finished then { t with pc := .dead } else t) }

/-- A history. -/
def run (s : Sys) (es : List Event) : Sys := es.foldl event s

/-! ## The file -/

/-- The files: their content by name. -/
abbrev Files := List Char → Option (List Char)

/-- The operations on the files. -/
inductive Op where
  | create (name : List Char)
  | append (name : List Char) (text : List Char)
  | replace (src dst : List Char)
  | unlink (name : List Char)

def apply (f : Files) : Op → Files
  | .create n => fun m => if m = n then some [] else f m
  | .append n t => fun m => if m = n then (f n).map (· ++ t) else f m
  | .replace a b => fun m => if m = b then f a else if m = a then none else f m
  | .unlink n => fun m => if m = n then none else f m

/-- `save_treafik_rules`, `atomic_writing` (oar/api/proxy_utils.py:66-99): the pieces of text written by `toml.dump` go to a temporary file, that then replaces the file;
`unlink` finds no file any more. -/
def saveOps (path random : List Char) (pieces : List (List Char)) : List Op :=
  let tmp := path ++ txt "-tmp-" ++ random
  .create tmp :: pieces.map (.append tmp) ++ [.replace tmp path, .unlink tmp]

end Oar.ApiProxy
