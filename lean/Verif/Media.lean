import Verif.Tools

/-!
# Model of the access to the files with the API

`oar/api/routers/media.py`. The commands are run by oardodo, as the user; the paths are names: links, `..` and repeated slashes are not modelled.
-/

namespace Oar.Media

open Oar.Tools

/-- The characters of `[$,`, ]` (oar/api/routers/media.py:57). -/
def special (c : Char) : Bool := c == '$' || c == ',' || c == '`' || c == ' '

/-- `re.sub(r"([$,`, ])", r"\\\1", path_filename)` (oar/api/routers/media.py:57). -/
def escape (s : List Char) : List Char := s.flatMap (fun c => if special c then ['\\', c] else [c])

/-- `user_and_filename_setup` (oar/api/routers/media.py:52-67): the result of the replacement of `~` is not kept. -/
def pathOf (s : List Char) : List Char := '/' :: escape s

/-- A file: whether it is a directory, its content, its mode. -/
structure Node where
  dir : Bool
  text : List Char
  mode : List Char
  deriving DecidableEq

/-- The files. -/
abbrev Files := List Char → Option Node

/-- The outside: the rights of the users (`test -r`, `test -w`), whether `chmod` and `rm` succeed, the names in the directory where the server runs. -/
structure World where
  readable : List Char → List Char → Bool
  writable : List Char → List Char → Bool
  chmodOk : List Char → List Char → List Char → Bool
  rmOk : List Char → List Char → Bool
  here : List (List Char)

/-- A command run as a user. -/
structure Cmd where
  user : List Char
  argv : List (List Char)
  deriving DecidableEq

/-- The answers: an error, a content, a code of success, a page of names with the total and the offset. -/
inductive Answer where
  | error (code : Nat)
  | content (text : List Char)
  | done (code : Nat)
  | listing (total : Nat) (offset : Nat) (names : List (List Char × Node))
  deriving DecidableEq

/-- What a request does: its answer, the files after it, its commands. -/
structure Result where
  answer : Answer
  files : Files
  cmds : List Cmd

/-- The lines of a text, each with its end. -/
def lines : List Char → List (List Char)
  | [] => []
  | c :: r =>
    if c = '\n' then ['\n'] :: lines r
    else match lines r with
      | [] => [[c]]
      | l :: ls => (c :: l) :: ls

/-- `tail -n k`: the last lines. -/
def lastLines (k : Nat) (t : List Char) : List Char := ((lines t).drop ((lines t).length - k)).flatten

/-- `test -f`, `test -d`, `test -e`. -/
def isFile (fs : Files) (p : List Char) : Bool := (fs p).any (fun n => !n.dir)
def isDir (fs : Files) (p : List Char) : Bool := (fs p).any (fun n => n.dir)
def isThere (fs : Files) (p : List Char) : Bool := (fs p).isSome

/-- `get_file` (oar/api/routers/media.py:131-162). A `tail` of zero is false. -/
def get (w : World) (fs : Files) (user : List Char) (name : List Char) (tail : Option Int) : Result :=
  let p := pathOf name
  let c1 : Cmd := ⟨user, [txt "test", txt "-f", p]⟩
  let c2 : Cmd := ⟨user, [txt "test", txt "-r", p]⟩
  if isFile fs p = false then ⟨.error 404, fs, [c1]⟩
  else if w.readable user p = false then ⟨.error 403, fs, [c1, c2]⟩
  else
    let t := ((fs p).map (·.text)).getD []
    if tail = none ∨ tail = some 0 then ⟨.content t, fs, [c1, c2, ⟨user, [txt "cat", p]⟩]⟩
    else ⟨.content (lastLines (tail.getD 0).natAbs t), fs, [c1, c2, ⟨user, [txt "tail", txt "-n", str (tail.getD 0), p]⟩]⟩

/-- `mode.isalnum()` (oar/api/routers/media.py:173), on ASCII characters. -/
def alnum (s : List Char) : Bool := !s.isEmpty && s.all (fun c => c.isAlphanum)

/-- `chmod` (oar/api/routers/media.py:165-191). -/
def chmod (w : World) (fs : Files) (user : List Char) (name mode : List Char) : Result :=
  let p := pathOf name
  let c1 : Cmd := ⟨user, [txt "test", txt "-e", p]⟩
  let c2 : Cmd := ⟨user, [txt "chmod", mode, p]⟩
  if isThere fs p = false then ⟨.error 404, fs, [c1]⟩
  else if alnum mode = false then ⟨.error 400, fs, [c1]⟩
  else if w.chmodOk user mode p = false then ⟨.error 500, fs, [c1, c2]⟩
  else ⟨.done 202, fun q => if q = p then (fs p).map (fun n => { n with mode := mode }) else fs q, [c1, c2]⟩

/-- Whether a path is another one, or below it. -/
def under (p q : List Char) : Bool := q == p || (p ++ ['/']).isPrefixOf q

/-- `delete` (oar/api/routers/media.py:246-275). When `rm -rf` fails the model keeps all the files. -/
def delete (w : World) (fs : Files) (user : List Char) (name : List Char) : Result :=
  let p := pathOf name
  let c1 : Cmd := ⟨user, [txt "test", txt "-e", p]⟩
  let c2 : Cmd := ⟨user, [txt "test", txt "-w", p]⟩
  let c3 : Cmd := ⟨user, [txt "rm", txt "-rf", p]⟩
  if isThere fs p = false then ⟨.error 404, fs, [c1]⟩
  else if w.writable user p = false then ⟨.error 403, fs, [c1, c2]⟩
  else if w.rmOk user p = false then ⟨.error 501, fs, [c1, c2, c3]⟩
  else ⟨.done 204, fun q => if under p q then none else fs q, [c1, c2, c3]⟩

/-- What the body of the upload is: `fileno` is the method that `Popen` needs. -/
structure Body where
  text : List Char
  fileno : Bool

/-- The uploaded file that FastAPI gives to the function has the methods read, write, seek and close. -/
def upload (text : List Char) : Body := ⟨text, false⟩

/-- `post_file` (oar/api/routers/media.py:194-243) with a form: a body without `fileno` makes `Popen(cmd, env=env, stdin=file)` raise before `p` is set, then `p.kill()` raises (500).
A request `application/octet-stream` has no form and is refused (422) before the function. With a usable body the shell writes the file `cat > path`: only the case of a plain path is
modelled. -/
def post (fs : Files) (user : List Char) (name : List Char) (force : Bool) (b : Body) : Result :=
  let p := pathOf name
  let c1 : Cmd := ⟨user, [txt "test", txt "-f", p]⟩
  let cs := if force then [] else [c1]
  if force = false ∧ isFile fs p = true then ⟨.error 403, fs, cs⟩
  else if name = [] then ⟨.error 400, fs, cs⟩
  else if b.fileno = false then ⟨.error 500, fs, cs⟩
  else ⟨.done 200, fun q => if q = p then some ⟨false, b.text, txt "644"⟩ else fs q,
    cs ++ [⟨user, [txt "bash", txt "--noprofile", txt "--norc", txt "-c", txt "cat > " ++ p]⟩]⟩

/-- `stat -c … files`: `none` when a file is missing, or when there is no file. -/
def stats (fs : Files) (p : List Char) (names : List (List Char)) : Option (List (List Char × Node)) :=
  if names = [] then none else names.mapM (fun n => (fs (p ++ '/' :: n)).map (fun x => (n, x)))

/-- `ls` (oar/api/routers/media.py:72-128): the command `ls` has no argument. The limit is not negative. -/
def ls (w : World) (fs : Files) (user : List Char) (name : List Char) (offset : Int) (limit : Nat) : Result :=
  let p := pathOf name
  let c1 : Cmd := ⟨user, [txt "test", txt "-d", p]⟩
  let c2 : Cmd := ⟨user, [txt "test", txt "-r", p]⟩
  let c3 : Cmd := ⟨user, [txt "ls"]⟩
  let c4 : Cmd := ⟨user, [txt "stat", txt "-c", txt "%f_%s_%Y_%F"] ++ w.here.map (fun n => p ++ '/' :: n)⟩
  if isDir fs p = false then ⟨.error 404, fs, [c1]⟩
  else if w.readable user p = false then ⟨.error 403, fs, [c1, c2]⟩
  else match stats fs p w.here with
    | none => ⟨.error 500, fs, [c1, c2, c3, c4]⟩
    | some l =>
      if offset < 0 ∨ (l.length : Int) < offset then ⟨.error 404, fs, [c1, c2, c3, c4]⟩
      else
        let page := (l.drop offset.toNat).take limit
        ⟨.listing page.length offset.toNat page, fs, [c1, c2, c3, c4]⟩

end Oar.Media
