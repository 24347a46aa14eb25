import Verif.ApiSubmit

/-!
# Specification of a submission with the API

From the documentation of the API: every long option of `oarsub` is a key of the request; `param_file` is the content of a file of parameters; `reservation` asks a start date.
-/

namespace Oar.ApiSubmit.Spec

open Oar.Tools Oar.Script Oar.ApiSubmit

/-- A value that a user can recognise in the job: two values are the same, or both are "nothing", or the same numbers. -/
def Same (v w : Val) : Prop := v = w ∨ (v.falsy = true ∧ w.falsy = true) ∨ ∃ l, v = .nums l ∧ w = .texts (l.map str)

/-- The value of a documented key of the request, `none` when the key is not given. -/
def given (r : Request) (key : String) : Option Val :=
  if key = "command" then some (.text r.command)
  else if key = "resource" then some (.texts r.resource)
  else if key = "array" then r.array.map .num
  else if key = "queue" then r.queue.map .text
  else if key = "properties" then r.properties.map .text
  else if key = "checkpoint" then some (.num r.checkpoint)
  else if key = "signal" then r.signal.map .num
  else if key = "types" then r.types.map .texts
  else if key = "directory" then r.directory.map .text
  else if key = "project" then r.project.map .text
  else if key = "name" then r.name.map .text
  else if key = "dependencies" then r.dependencies.map .nums
  else if key = "notify" then r.notify.map .text
  else if key = "use_job_key" then some (.flag r.useKey)
  else if key = "import_job_key_inline" then r.importInline.map .text
  else if key = "stdout" then r.stdout.map .text
  else if key = "stderr" then r.stderr.map .text
  else if key = "hold" then r.hold.map .flag
  else none

/-- The keys whose value reaches the job. -/
def honoured : List String :=
  ["command", "resource", "array", "queue", "properties", "checkpoint", "signal", "types", "directory", "project", "name", "dependencies", "notify",
   "use_job_key", "import_job_key_inline", "stdout", "stderr", "hold"]

/-- The command line of `oarsub` for a request, with the file that contains its parameters. -/
def commandLine (r : Request) (cwd : List Char) (file : Option (List Char)) : Args :=
  { arrayFile := file, command := some r.command, queue := r.queue, resource := r.resource, property := r.properties, array := r.array, checkpoint := r.checkpoint, signal := r.signal,
    type := r.types.getD [], directory := some (r.directory.getD cwd), project := r.project, name := r.name, after := (r.dependencies.getD []).map str,
    notify := r.notify, useKey := r.useKey, importFile := r.importFile, importInline := r.importInline, exportFile := r.exportFile, stdout := r.stdout,
    stderr := r.stderr, hold := r.hold.getD false }

/-- No `$` in the command nor in the directory, no blank before the queue, the properties and the types: the texts that both take as they are. -/
def Plain (r : Request) : Prop :=
  (∀ c ∈ r.command, c ≠ '$') ∧ (∀ d, r.directory = some d → ∀ c ∈ d, c ≠ '$') ∧
  (∀ q, r.queue = some q → q.dropWhile isSpace = q) ∧ (∀ q, r.properties = some q → q.dropWhile isSpace = q) ∧
  (∀ l, r.types = some l → ∀ t ∈ l, t.dropWhile isSpace = t)

end Oar.ApiSubmit.Spec
