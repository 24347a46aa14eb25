import Verif.Script
import Verif.ConfigProps

/-!
# Specification of the directives of a script

From the manual of oarsub: a script can contain options, in lines that start with `#OAR`, with the syntax of the command line. The options of the command line come
first; an option that can be repeated keeps all its values in their order, the others keep the last one.
-/

namespace Oar.Script.Spec

open Oar.Tools Oar.Config Oar.Script

/-- What an option takes: a text, texts (it can be repeated), a number, numbers, or nothing. -/
inductive Arg where
  | one
  | many
  | number
  | numbers
  | nothing
  deriving DecidableEq

/-- The options of the manual that describe a job: the name, the parameter, what it takes. A dependency is a job without bounds. -/
def documented : List (String × String × Arg) :=
  [("-l", "resource", .many), ("--resource", "resource", .many), ("--array", "array", .number), ("--array-param-file", "array_param_file", .one),
   ("-q", "queue", .one), ("--queue", "queue", .one), ("-p", "properties", .many), ("--property", "properties", .many),
   ("--checkpoint", "checkpoint", .number), ("--signal", "signal", .number), ("-t", "types", .many), ("--type", "types", .many),
   ("-d", "directory", .one), ("--directory", "directory", .one), ("--project", "project", .one), ("-n", "name", .one), ("--name", "name", .one),
   ("-a", "dependencies", .numbers), ("--after", "dependencies", .numbers), ("--notify", "notify", .one), ("-k", "use_job_key", .nothing),
   ("--use-job-key", "use_job_key", .nothing), ("-e", "export_job_key_file", .one), ("--export-job-key-to-file", "export_job_key_file", .one),
   ("-i", "import_job_key_file", .one), ("--import-job-key-from-file", "import_job_key_file", .one),
   ("--import-job-key-inline", "import_job_key_inline", .one), ("-O", "stdout", .one), ("--stdout", "stdout", .one), ("-E", "stderr", .one),
   ("--stderr", "stderr", .one), ("--hold", "hold", .nothing), ("-s", "stagein", .one), ("--stagein", "stagein", .one),
   ("--stagein-md5sum", "stagein_md5sum", .one)]

/-- A directive: the option and its value. -/
structure Directive where
  name : String
  key : String
  arg : Arg
  value : List Char

/-- A value that can be written: texts without blanks at their ends, numbers in digits. -/
def Writable (a : Arg) (v : List Char) : Prop :=
  match a with
  | .one | .many => v ≠ [] ∧ NoEdge isSpace v ∧ '\n' ∉ v
  | .number | .numbers => v ≠ [] ∧ ∀ c ∈ v, c.isDigit = true
  | .nothing => v = []

/-- A directive of the manual that the code is said to read: the key in the line and the checksum of the archive are not (see the violations). -/
def Good (d : Directive) : Prop :=
  (d.name, d.key, d.arg) ∈ documented ∧ d.name ≠ "--import-job-key-inline" ∧ d.name ≠ "--stagein-md5sum" ∧ Writable d.arg d.value

/-- Blanks inside a line. -/
def Blanks (b : List Char) : Prop := (∀ c ∈ b, isSpace c = true) ∧ '\n' ∉ b

/-- A line of a script: a directive, with its blanks, or anything that does not start with `#OAR` and a blank. -/
inductive Line where
  | other (text : List Char)
  | directive (d : Directive) (b1 b2 b3 : List Char)

/-- The text of a line. -/
def Line.text : Line → List Char
  | .other t => t
  | .directive d b1 b2 b3 => txt "#OAR" ++ b1 ++ d.name.toList ++ b2 ++ d.value ++ b3

/-- A line as described. -/
def Line.Good : Line → Prop
  | .other t => '\n' ∉ t ∧ ∀ c r, t = txt "#OAR" ++ c :: r → isSpace c = false
  | .directive d b1 b2 b3 => Spec.Good d ∧ Blanks b1 ∧ b1 ≠ [] ∧ Blanks b2 ∧ (d.arg = .nothing → b2 = []) ∧ Blanks b3

/-- The directives of a script. -/
def directives (l : List Line) : List Directive :=
  l.filterMap (fun x =>
    match x with
    | .other _ => none
    | .directive d _ _ _ => some d)

/-- The text of a script. -/
def scriptText : List (List Char) → List Char
  | [] => []
  | [a] => a
  | a :: b :: l => a ++ '\n' :: scriptText (b :: l)

/-- The value that the directives give to a parameter. -/
def meaning (ds : List Directive) (key : String) : Option Val :=
  match (ds.filter (fun d => d.key == key)).getLast? with
  | none => none
  | some d =>
    match d.arg with
    | .one => some (.text d.value)
    | .many => some (.texts ((ds.filter (fun d => d.key == key)).map Directive.value))
    | .number => some (.num (Oar.Tools.val d.value))
    | .numbers => some (.nums ((ds.filter (fun d => d.key == key)).map (fun d => (Oar.Tools.val d.value : Int))))
    | .nothing => some (.flag true)

/-- The directives as options of a command line. -/
def requestText (ds : List Directive) : List Char :=
  (ds.map (fun d => if d.arg = .nothing then ' ' :: d.name.toList else ' ' :: d.name.toList ++ ' ' :: d.value)).flatten

/-- A text that the command line gives. -/
def givenText (v : Option (List Char)) : Option Val := v.bind (fun s => if s = [] then none else some (.text s))

/-- A text that the command line gives, without the blanks before it. -/
def givenWord (v : Option (List Char)) : Option Val :=
  v.bind (fun s => if s.dropWhile isSpace = [] then none else some (.text (s.dropWhile isSpace)))

/-- A number that the command line gives. -/
def givenNum (v : Option Int) : Option Val := v.bind (fun s => if s = 0 then none else some (.num s))

/-- What the command line gives to a parameter, if anything. -/
def given (a : Args) (key : String) : Option Val :=
  if key = "resource" then (if a.resource = [] then none else some (.texts a.resource))
  else if key = "queue" then givenWord a.queue
  else if key = "checkpoint" then (if a.checkpoint = 0 then none else some (.num a.checkpoint))
  else if key = "signal" then givenNum a.signal
  else if key = "notify" then givenText a.notify
  else if key = "name" then givenText a.name
  else if key = "types" then (if a.type = [] then none else some (.texts (a.type.map (fun t => t.dropWhile isSpace))))
  else if key = "dependencies" then (if a.after = [] then none else some (.texts a.after))
  else if key = "stdout" then givenText a.stdout
  else if key = "stderr" then givenText a.stderr
  else if key = "hold" then (if a.hold then some (.flag true) else none)
  else if key = "project" then givenText a.project
  else if key = "array" then givenNum a.array
  else if key = "array_param_file" then givenText a.arrayFile
  else if key = "use_job_key" then (if a.useKey then some (.flag true) else none)
  else if key = "import_job_key_file" then givenText a.importFile
  else if key = "export_job_key_file" then givenText a.exportFile
  else if key = "properties" then givenWord a.property
  else if key = "directory" then givenText a.directory
  else none

/-- The parameter asked: by the command line, else by the script. -/
def asked (a : Args) (ds : List Directive) (key : String) : Option Val :=
  match given a key with
  | some v => some v
  | none => meaning ds key

/-- Has a parameter the value asked? When nothing is asked it is empty. -/
def Is (v : Val) (asked : Option Val) : Prop :=
  match asked with
  | some w => v = w
  | none => v.falsy = true

/-- A condition without parentheses, as a disjunction of conjunctions of atoms. -/
abbrev Cond := List (List (List Char))

/-- The texts joined by a separator. -/
def joinWith (sep : List Char) : List (List Char) → List Char
  | [] => []
  | [a] => a
  | a :: b :: l => a ++ sep ++ joinWith sep (b :: l)

/-- The text of a condition: AND binds more than OR. -/
def Cond.text (c : Cond) : List Char := joinWith (txt " OR ") (c.map (joinWith (txt " AND ")))

/-- The meaning of a condition. -/
def Cond.holds (v : List Char → Bool) (c : Cond) : Bool := c.any (fun l => l.all v)

end Oar.Script.Spec
