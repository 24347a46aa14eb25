import Verif.ConnectSpec
import Verif.SignalProps

/-!
# C111: the connection to a job
-/

namespace Oar.Connect
open Oar.Tools

/-! ### Reading a text between double quotes -/

theorem safe_ne {c d : Char} (h : Safe c) (hd : ¬ Safe d) : c ≠ d := fun e => hd (e ▸ h)

theorem q_append (a b : List Char) (st : ShellQuotes.St) : ShellQuotes.feed st (a ++ b) = match ShellQuotes.feed st a with
    | none => none
    | some st' => ShellQuotes.feed st' b := by
  induction a generalizing st with
  | nil => rfl
  | cons c a ih =>
    show (match ShellQuotes.step st c with
      | none => none
      | some st' => ShellQuotes.feed st' (a ++ b)) = match (match ShellQuotes.step st c with
      | none => none
      | some st' => ShellQuotes.feed st' a) with
      | none => none
      | some st' => ShellQuotes.feed st' b
    cases ShellQuotes.step st c with
    | none => rfl
    | some st' => exact ih st'

theorem q_then {a b : List Char} {st s1 s2 : ShellQuotes.St} (h1 : ShellQuotes.feed st a = some s1) (h2 : ShellQuotes.feed s1 b = some s2) : ShellQuotes.feed st (a ++ b) = some s2 := by
  rw [q_append, h1]
  exact h2

/-- Between double quotes or not. -/
def mode (b : Bool) : ShellQuotes.Mode := if b then .double else .plain

/-- The text `s` adds `t` to the word that is read. -/
def Reads (b : Bool) (s : List Char) (b' : Bool) (t : List Char) : Prop :=
  ∀ v T, ShellQuotes.feed ⟨mode b, some v, T⟩ s = some ⟨mode b', some (v ++ t), T⟩

theorem Reads.nil (b : Bool) : Reads b [] b [] := fun v T => by rw [List.append_nil]; rfl

theorem Reads.trans {a b c : Bool} {s s' t t' : List Char} (h : Reads a s b t) (h' : Reads b s' c t') : Reads a (s ++ s') c (t ++ t') := by
  intro v T
  rw [← List.append_assoc]
  exact q_then (h v T) (h' _ T)

theorem q_safe {c : Char} (h : Safe c) (b : Bool) (v : List Char) (T : List Shell.Tok) : ShellQuotes.step ⟨mode b, some v, T⟩ c = some ⟨mode b, some (v ++ [c]), T⟩ := by
  have n1 := safe_ne (d := ' ') h (by decide)
  have n2 := safe_ne (d := '\t') h (by decide)
  have n3 := safe_ne (d := '\n') h (by decide)
  have n4 := safe_ne (d := ';') h (by decide)
  have n5 := safe_ne (d := '&') h (by decide)
  have n6 := safe_ne (d := '|') h (by decide)
  have n7 := safe_ne (d := '>') h (by decide)
  have n8 := safe_ne (d := '\'') h (by decide)
  have n9 := safe_ne (d := '#') h (by decide)
  have n10 := safe_ne (d := '(') h (by decide)
  have n11 := safe_ne (d := '"') h (by decide)
  have n12 := safe_ne (d := '\\') h (by decide)
  have n13 := safe_ne (d := '`') h (by decide)
  have n14 := safe_ne (d := '<') h (by decide)
  have n15 := safe_ne (d := ')') h (by decide)
  have n16 := safe_ne (d := '$') h (by decide)
  have n17 := safe_ne (d := '*') h (by decide)
  have n18 := safe_ne (d := '?') h (by decide)
  have n19 := safe_ne (d := '[') h (by decide)
  have n20 := safe_ne (d := '{') h (by decide)
  have n21 := safe_ne (d := '~') h (by decide)
  cases b <;> simp [ShellQuotes.step, ShellQuotes.plainStep, ShellQuotes.St.push, mode, n1, n2, n3, n4, n5, n6, n7, n8, n9, n10, n11, n12, n13, n14, n15, n16, n17, n18, n19, n20, n21]

theorem Reads.safe {l : List Char} (h : SafeText l) (b : Bool) : Reads b l b l := by
  induction l with
  | nil => exact Reads.nil b
  | cons c l ih =>
    have h1 : Reads b [c] b [c] := fun v T => by
      rw [ShellQuotes.feed, q_safe (h c List.mem_cons_self)]
      rfl
    exact h1.trans (ih (fun d hd => h d (List.mem_cons_of_mem _ hd)))

/-- Computes what a text without separator adds. -/
def scan : Bool → List Char → Option (Bool × List Char)
  | b, [] => some (b, [])
  | _, ['\\'] => none
  | true, '\\' :: '$' :: r => (scan true r).map (fun x => (x.1, '$' :: x.2))
  | false, '\\' :: '$' :: r => (scan false r).map (fun x => (x.1, '$' :: x.2))
  | true, c :: r =>
    if c = '"' then scan false r
    else if c = '\\' ∨ c = '$' ∨ c = '`' then none
    else (scan true r).map (fun x => (x.1, c :: x.2))
  | false, c :: r =>
    if c = '"' then scan true r
    else if Safe c then (scan false r).map (fun x => (x.1, c :: x.2))
    else none

theorem Reads.scan {b : Bool} {s : List Char} {b' : Bool} {t : List Char} (h : scan b s = some (b', t)) : Reads b s b' t := by
  fun_induction Oar.Connect.scan b s generalizing b' t with
  | case1 b => cases h; exact Reads.nil _
  | case2 => cases h
  | case3 r ih =>
    rw [Option.map_eq_some_iff] at h
    obtain ⟨x, hx, e⟩ := h
    cases e
    have h1 : Reads true ['\\', '$'] true ['$'] := fun v T => rfl
    exact h1.trans (ih hx)
  | case4 r ih =>
    rw [Option.map_eq_some_iff] at h
    obtain ⟨x, hx, e⟩ := h
    cases e
    have h1 : Reads false ['\\', '$'] false ['$'] := fun v T => rfl
    exact h1.trans (ih hx)
  | case5 r _ _ ih =>
    have h1 : Reads true ['"'] false [] := fun v T => by rw [List.append_nil]; rfl
    exact h1.trans (ih h)
  | case6 => cases h
  | case7 c r _ _ n1 n2 ih =>
    rw [Option.map_eq_some_iff] at h
    obtain ⟨x, hx, e⟩ := h
    cases e
    have h1 : Reads true [c] true [c] := fun v T => by
      have n3 : ¬ c = '\\' := fun e => n2 (Or.inl e)
      have n4 : ¬ (c = '$' ∨ c = '`') := fun e => n2 (Or.inr e)
      simp [ShellQuotes.feed, ShellQuotes.step, mode, n1, n3, n4, ShellQuotes.St.push]
    exact h1.trans (ih hx)
  | case8 r _ _ ih =>
    have h1 : Reads false ['"'] true [] := fun v T => by
      simp [ShellQuotes.feed, ShellQuotes.step, ShellQuotes.plainStep, mode, ShellQuotes.St.push]
    exact h1.trans (ih h)
  | case9 c r _ _ n1 n2 ih =>
    rw [Option.map_eq_some_iff] at h
    obtain ⟨x, hx, e⟩ := h
    cases e
    have h1 : Reads false [c] false [c] := Reads.safe (fun d hd => by rw [List.mem_singleton] at hd; exact hd ▸ n2) false
    exact h1.trans (ih hx)
  | case10 => cases h

/-! ### The script -/

/-- A variable set by the script: its name, the text of its value in the script, its value for the node. -/
structure Entry where
  name : List Char
  raw : List Char
  value : List Char

/-- Between double quotes. -/
def quoted (n v : List Char) : Entry := ⟨n, txt "\"" ++ v ++ txt "\"", v⟩

/-- Without quotes. -/
def bare (n v : List Char) : Entry := ⟨n, v, v⟩

/-- The value of another variable. -/
def other (n v : List Char) : Entry := ⟨n, txt "\\$" ++ v, txt "$" ++ v⟩

/-- The variables before the directory. -/
def entries1 (cf : Conf) (j : Job) : List Entry :=
  [quoted (txt "OAR_FILE_NODES") (nodeFile cf j), bare (txt "OAR_JOBID") (str j.id), bare (txt "OAR_ARRAYID") (str j.arrayId), bare (txt "OAR_ARRAYINDEX") (str j.arrayIndex),
   quoted (txt "OAR_USER") j.user]

/-- Between the directory and the project. -/
def entries2 (cf : Conf) (j : Job) : List Entry :=
  [quoted (txt "OAR_RESOURCE_PROPERTIES_FILE") (resourceFile cf j), other (txt "OAR_NODEFILE") (txt "OAR_FILE_NODES"), other (txt "OAR_O_WORKDIR") (txt "OAR_WORKDIR"),
   other (txt "OAR_NODE_FILE") (txt "OAR_FILE_NODES"), other (txt "OAR_RESOURCE_FILE") (txt "OAR_FILE_NODES"), other (txt "OAR_WORKING_DIRECTORY") (txt "OAR_WORKDIR"),
   other (txt "OAR_JOB_ID") (txt "OAR_JOBID"), other (txt "OAR_ARRAY_ID") (txt "OAR_ARRAYID"), other (txt "OAR_ARRAY_INDEX") (txt "OAR_ARRAYINDEX"), quoted (txt "OAR_JOB_NAME") (j.name.getD [])]

/-- After the project. -/
def entries3 (cf : Conf) (j : Job) (shell : List Char) : List Entry :=
  [quoted (txt "OAR_JOB_WALLTIME") (durationToSql j.walltime), bare (txt "OAR_JOB_WALLTIME_SECONDS") (str j.walltime)] ++
  (match cf.proxyUrl with | some u => [bare (txt "OAR_PROXY_BASE_URL") u] | none => []) ++ [quoted (txt "SHELL") shell]

def Entry.text (e : Entry) : List Char := txt "export " ++ e.name ++ txt "=" ++ e.raw ++ txt ";"

def Entry.pair (e : Entry) : List Char × List Char := (e.name, e.value)

def startText : List Char := txt "if [ \"a\\$TERM\" == \"a\" ] || [ \"x\\$TERM\" == \"xunknown\" ]; then export TERM=xterm; fi;"

def tailText : List Char := txt " export SUDO_COMMAND=OAR; SHLVL=1; if ( cd \"\\$OAR_WORKING_DIRECTORY\" &> /dev/null ); then     cd \"\\$OAR_WORKING_DIRECTORY\"; else     exit 2; fi; (exec -a -\\${SHELL##*/} \\$SHELL); exit 0"

def startRead : List Char := txt "if [ a$TERM == a ] || [ x$TERM == xunknown ]; then export TERM=xterm; fi;"

def tailRead : List Char := txt " export SUDO_COMMAND=OAR; SHLVL=1; if ( cd $OAR_WORKING_DIRECTORY &> /dev/null ); then     cd $OAR_WORKING_DIRECTORY; else     exit 2; fi; (exec -a -${SHELL##*/} $SHELL); exit 0"

/-- The script, cut at the directory and at the project. -/
theorem script_eq (cf : Conf) (j : Job) (shell : List Char) (he : j.env = none) : script cf j (nodeFile cf j) shell (resourceFile cf j) =
    startText ++ ((entries1 cf j).flatMap Entry.text ++ ((txt "export OAR_WORKDIR=" ++ txt "\"") ++ (j.directory ++ ((txt "\"" ++ txt ";") ++ ((entries2 cf j).flatMap Entry.text ++
      ((txt "export OAR_PROJECT_NAME=" ++ txt "\"") ++ (j.project ++ ((txt "\"" ++ txt ";") ++ ((entries3 cf j shell).flatMap Entry.text ++ tailText))))))))) := by
  have q_OAR_FILE_NODES : txt "export OAR_FILE_NODES=\"" = txt "export " ++ (txt "OAR_FILE_NODES" ++ (txt "=" ++ txt "\"")) := by decide
  have q_OAR_USER : txt "export OAR_USER=\"" = txt "export " ++ (txt "OAR_USER" ++ (txt "=" ++ txt "\"")) := by decide
  have q_OAR_WORKDIR : txt "export OAR_WORKDIR=\"" = txt "export " ++ (txt "OAR_WORKDIR" ++ (txt "=" ++ txt "\"")) := by decide
  have q_OAR_RESOURCE_PROPERTIES_FILE : txt "export OAR_RESOURCE_PROPERTIES_FILE=\"" = txt "export " ++ (txt "OAR_RESOURCE_PROPERTIES_FILE" ++ (txt "=" ++ txt "\"")) := by decide
  have q_OAR_JOB_NAME : txt "export OAR_JOB_NAME=\"" = txt "export " ++ (txt "OAR_JOB_NAME" ++ (txt "=" ++ txt "\"")) := by decide
  have q_OAR_PROJECT_NAME : txt "export OAR_PROJECT_NAME=\"" = txt "export " ++ (txt "OAR_PROJECT_NAME" ++ (txt "=" ++ txt "\"")) := by decide
  have q_OAR_JOB_WALLTIME : txt "export OAR_JOB_WALLTIME=\"" = txt "export " ++ (txt "OAR_JOB_WALLTIME" ++ (txt "=" ++ txt "\"")) := by decide
  have q_SHELL : txt "export SHELL=\"" = txt "export " ++ (txt "SHELL" ++ (txt "=" ++ txt "\"")) := by decide
  have b_OAR_JOBID : txt "export OAR_JOBID=" = txt "export " ++ (txt "OAR_JOBID" ++ txt "=") := by decide
  have b_OAR_ARRAYID : txt "export OAR_ARRAYID=" = txt "export " ++ (txt "OAR_ARRAYID" ++ txt "=") := by decide
  have b_OAR_ARRAYINDEX : txt "export OAR_ARRAYINDEX=" = txt "export " ++ (txt "OAR_ARRAYINDEX" ++ txt "=") := by decide
  have b_OAR_JOB_WALLTIME_SECONDS : txt "export OAR_JOB_WALLTIME_SECONDS=" = txt "export " ++ (txt "OAR_JOB_WALLTIME_SECONDS" ++ txt "=") := by decide
  have b_OAR_PROXY_BASE_URL : txt "export OAR_PROXY_BASE_URL=" = txt "export " ++ (txt "OAR_PROXY_BASE_URL" ++ txt "=") := by decide
  have o_OAR_NODEFILE : txt "export OAR_NODEFILE=\\$OAR_FILE_NODES;" = txt "export " ++ (txt "OAR_NODEFILE" ++ (txt "=" ++ (txt "\\$" ++ (txt "OAR_FILE_NODES" ++ txt ";")))) := by decide
  have o_OAR_O_WORKDIR : txt "export OAR_O_WORKDIR=\\$OAR_WORKDIR;" = txt "export " ++ (txt "OAR_O_WORKDIR" ++ (txt "=" ++ (txt "\\$" ++ (txt "OAR_WORKDIR" ++ txt ";")))) := by decide
  have o_OAR_NODE_FILE : txt "export OAR_NODE_FILE=\\$OAR_FILE_NODES;" = txt "export " ++ (txt "OAR_NODE_FILE" ++ (txt "=" ++ (txt "\\$" ++ (txt "OAR_FILE_NODES" ++ txt ";")))) := by decide
  have o_OAR_RESOURCE_FILE : txt "export OAR_RESOURCE_FILE=\\$OAR_FILE_NODES;" = txt "export " ++ (txt "OAR_RESOURCE_FILE" ++ (txt "=" ++ (txt "\\$" ++ (txt "OAR_FILE_NODES" ++ txt ";")))) := by decide
  have o_OAR_WORKING_DIRECTORY : txt "export OAR_WORKING_DIRECTORY=\\$OAR_WORKDIR;" = txt "export " ++ (txt "OAR_WORKING_DIRECTORY" ++ (txt "=" ++ (txt "\\$" ++ (txt "OAR_WORKDIR" ++ txt ";")))) := by decide
  have o_OAR_JOB_ID : txt "export OAR_JOB_ID=\\$OAR_JOBID;" = txt "export " ++ (txt "OAR_JOB_ID" ++ (txt "=" ++ (txt "\\$" ++ (txt "OAR_JOBID" ++ txt ";")))) := by decide
  have o_OAR_ARRAY_ID : txt "export OAR_ARRAY_ID=\\$OAR_ARRAYID;" = txt "export " ++ (txt "OAR_ARRAY_ID" ++ (txt "=" ++ (txt "\\$" ++ (txt "OAR_ARRAYID" ++ txt ";")))) := by decide
  have o_OAR_ARRAY_INDEX : txt "export OAR_ARRAY_INDEX=\\$OAR_ARRAYINDEX;" = txt "export " ++ (txt "OAR_ARRAY_INDEX" ++ (txt "=" ++ (txt "\\$" ++ (txt "OAR_ARRAYINDEX" ++ txt ";")))) := by decide
  have e1 : txt "\";" = txt "\"" ++ txt ";" := by decide
  have d_OAR_WORKDIR : txt "export OAR_WORKDIR=" = txt "export " ++ (txt "OAR_WORKDIR" ++ txt "=") := by decide
  have d_OAR_PROJECT_NAME : txt "export OAR_PROJECT_NAME=" = txt "export " ++ (txt "OAR_PROJECT_NAME" ++ txt "=") := by decide
  have e2 : tailText = txt " export SUDO_COMMAND=OAR;" ++ (txt " SHLVL=1;" ++ (txt " if ( cd \"\\$OAR_WORKING_DIRECTORY\" &> /dev/null ); then     cd \"\\$OAR_WORKING_DIRECTORY\"; else     exit 2; fi;" ++ txt " (exec -a -\\${SHELL##*/} \\$SHELL); exit 0")) := by decide +kernel
  rw [e2]
  unfold script entries1 entries2 entries3
  rw [he]
  cases cf.proxyUrl with
  | none =>
    simp only [List.append_assoc, List.flatMap_cons, List.flatMap_nil, List.nil_append, List.append_nil, Entry.text, quoted, bare, other, List.cons_append, Option.getD, startText, q_OAR_FILE_NODES, q_OAR_USER, q_OAR_WORKDIR, q_OAR_RESOURCE_PROPERTIES_FILE, q_OAR_JOB_NAME, q_OAR_PROJECT_NAME, q_OAR_JOB_WALLTIME, q_SHELL, b_OAR_JOBID, b_OAR_ARRAYID, b_OAR_ARRAYINDEX, b_OAR_JOB_WALLTIME_SECONDS, o_OAR_NODEFILE, o_OAR_O_WORKDIR, o_OAR_NODE_FILE, o_OAR_RESOURCE_FILE, o_OAR_WORKING_DIRECTORY, o_OAR_JOB_ID, o_OAR_ARRAY_ID, o_OAR_ARRAY_INDEX, d_OAR_WORKDIR, d_OAR_PROJECT_NAME, e1]
  | some u =>
    simp only [List.append_assoc, List.flatMap_cons, List.flatMap_nil, List.nil_append, List.append_nil, Entry.text, quoted, bare, other, List.cons_append, Option.getD, startText, q_OAR_FILE_NODES, q_OAR_USER, q_OAR_WORKDIR, q_OAR_RESOURCE_PROPERTIES_FILE, q_OAR_JOB_NAME, q_OAR_PROJECT_NAME, q_OAR_JOB_WALLTIME, q_SHELL, b_OAR_JOBID, b_OAR_ARRAYID, b_OAR_ARRAYINDEX, b_OAR_JOB_WALLTIME_SECONDS, b_OAR_PROXY_BASE_URL, o_OAR_NODEFILE, o_OAR_O_WORKDIR, o_OAR_NODE_FILE, o_OAR_RESOURCE_FILE, o_OAR_WORKING_DIRECTORY, o_OAR_JOB_ID, o_OAR_ARRAY_ID, o_OAR_ARRAY_INDEX, d_OAR_WORKDIR, d_OAR_PROJECT_NAME, e1]

theorem exports_eq (cf : Conf) (j : Job) (shell : List Char) : exports cf j shell =
    (entries1 cf j).map Entry.pair ++ (txt "OAR_WORKDIR", j.directory) :: ((entries2 cf j).map Entry.pair ++ (txt "OAR_PROJECT_NAME", j.project) :: (entries3 cf j shell).map Entry.pair) := by
  unfold exports entries3
  cases cf.proxyUrl <;> rfl

/-- What is needed of a variable. -/
def Good (e : Entry) : Prop := SafeText e.name ∧ Reads true e.raw true e.value ∧ ∀ c ∈ e.value, Safe c ∨ c = '$'

theorem good_quoted {n v : List Char} (hn : SafeText n) (hv : SafeText v) : Good (quoted n v) := by
  refine ⟨hn, ?_, fun c hc => Or.inl (hv c hc)⟩
  have h1 : Reads true (txt "\"") false [] := Reads.scan (by decide)
  have h2 : Reads false (txt "\"") true [] := Reads.scan (by decide)
  have := (h1.trans (Reads.safe hv false)).trans h2
  rw [List.nil_append, List.append_nil] at this
  exact this

theorem good_bare {n v : List Char} (hn : SafeText n) (hv : SafeText v) : Good (bare n v) := ⟨hn, Reads.safe hv true, fun c hc => Or.inl (hv c hc)⟩

theorem good_other {n v : List Char} (hn : SafeText n) (hv : SafeText v) : Good (other n v) := by
  refine ⟨hn, ?_, ?_⟩
  · have h1 : Reads true (txt "\\$") true (txt "$") := Reads.scan (by decide)
    exact h1.trans (Reads.safe hv true)
  · intro c hc
    rcases List.mem_append.1 hc with hc | hc
    · right; simpa [txt] using hc
    · exact Or.inl (hv c hc)

theorem digits_safe (n : Nat) : SafeText (digits n) := by
  intro c hc
  have h := (digits_spec n).2.1
  rw [List.all_eq_true] at h
  have hd := h c hc
  left
  unfold Char.isAlphanum
  rw [hd]
  simp

theorem str_safe (n : Int) : SafeText (str n) := by
  unfold str
  split
  · intro c hc
    rcases List.mem_cons.1 hc with rfl | hc
    · decide
    · exact digits_safe _ c hc
  · exact digits_safe _

theorem SafeText.append {a b : List Char} (ha : SafeText a) (hb : SafeText b) : SafeText (a ++ b) := fun c hc => (List.mem_append.1 hc).elim (ha c) (hb c)

theorem sql_safe (t : Int) : SafeText (durationToSql t) := by
  unfold durationToSql hmsToSql
  refine (str_safe _).append ?_
  refine SafeText.append (a := [':']) (by decide) ((str_safe _).append ?_)
  exact SafeText.append (a := [':']) (by decide) (str_safe _)

theorem nodeFile_safe {cf : Conf} (j : Job) (h : SafeText cf.dir) : SafeText (nodeFile cf j) := (h.append (b := txt "/") (by decide)).append (str_safe _)

theorem resourceFile_safe {cf : Conf} (j : Job) (h : SafeText cf.dir) : SafeText (resourceFile cf j) := (nodeFile_safe j h).append (by decide)

theorem pidsFile_safe {cf : Conf} (j : Job) (h : SafeText cf.dir) (h' : SafeText cf.pidsPrefix) : SafeText (pidsFile cf j) :=
  ((h.append (b := txt "/") (by decide)).append h').append (str_safe _)

section
variable {cf : Conf} {j : Job} {ssh : List (List Char)} {h shell : List Char}

theorem good1 (u : Usual cf j ssh h shell) : ∀ e ∈ entries1 cf j, Good e := by
  unfold entries1
  simp only [List.forall_mem_cons]
  exact ⟨good_quoted (by decide) (nodeFile_safe j u.dir), good_bare (by decide) (str_safe _), good_bare (by decide) (str_safe _), good_bare (by decide) (str_safe _),
    good_quoted (by decide) u.user, fun _ h => by cases h⟩

theorem good2 (u : Usual cf j ssh h shell) : ∀ e ∈ entries2 cf j, Good e := by
  unfold entries2
  simp only [List.forall_mem_cons]
  exact ⟨good_quoted (by decide) (resourceFile_safe j u.dir), good_other (by decide) (by decide), good_other (by decide) (by decide), good_other (by decide) (by decide),
    good_other (by decide) (by decide), good_other (by decide) (by decide), good_other (by decide) (by decide), good_other (by decide) (by decide), good_other (by decide) (by decide),
    good_quoted (by decide) u.name, fun _ h => by cases h⟩

theorem good3 (u : Usual cf j ssh h shell) : ∀ e ∈ entries3 cf j shell, Good e := by
  unfold entries3
  cases hp : cf.proxyUrl with
  | none =>
    dsimp only [List.append_nil, List.cons_append, List.nil_append]
    simp only [List.forall_mem_cons]
    exact ⟨good_quoted (by decide) (sql_safe _), good_bare (by decide) (str_safe _), good_quoted (by decide) u.shell, fun _ h => by cases h⟩
  | some x =>
    dsimp only [List.append_nil, List.cons_append, List.nil_append]
    simp only [List.forall_mem_cons]
    exact ⟨good_quoted (by decide) (sql_safe _), good_bare (by decide) (str_safe _), good_bare (by decide) (u.proxy x hp), good_quoted (by decide) u.shell, fun _ h => by cases h⟩

theorem reads_entry {e : Entry} (he : Good e) : Reads true e.text true (exportText e.pair) := by
  have h1 : Reads true (txt "export ") true (txt "export ") := Reads.scan (by decide)
  have h2 : Reads true (txt "=") true (txt "=") := Reads.scan (by decide)
  have h3 : Reads true (txt ";") true (txt ";") := Reads.scan (by decide)
  exact (((h1.trans (Reads.safe he.1 true)).trans h2).trans he.2.1).trans h3

theorem reads_entries {es : List Entry} (he : ∀ e ∈ es, Good e) : Reads true (es.flatMap Entry.text) true ((es.map Entry.pair).flatMap exportText) := by
  induction es with
  | nil => exact Reads.nil true
  | cons e es ih => exact (reads_entry (he e List.mem_cons_self)).trans (ih (fun x hx => he x (List.mem_cons_of_mem _ hx)))

/-! ### The text given to the local shell -/

/-- Up to the directory. -/
def part1 (cf : Conf) (j : Job) : List Char :=
  txt "bash -c 'echo \\$PPID >> " ++ pidsFile cf j ++ txt " && TTY=\\$(tty) && test -e \\$TTY && oardodo chown " ++ j.user
  ++ txt ":oar \\$TTY && oardodo chmod 660 \\$TTY' && OARDO_BECOME_USER=" ++ j.user ++ txt " oardodo bash --noprofile --norc -c '" ++ startText ++ (entries1 cf j).flatMap Entry.text ++
  (txt "export OAR_WORKDIR=" ++ txt "\"")

/-- Up to the project. -/
def part2 (cf : Conf) (j : Job) : List Char := (txt "\"" ++ txt ";") ++ (entries2 cf j).flatMap Entry.text ++ (txt "export OAR_PROJECT_NAME=" ++ txt "\"")

/-- The end. -/
def part3 (cf : Conf) (j : Job) (shell : List Char) : List Char := (txt "\"" ++ txt ";") ++ (entries3 cf j shell).flatMap Entry.text ++ (tailText ++ txt "'\"")

def read1 (cf : Conf) (j : Job) : List Char :=
  txt "bash -c 'echo $PPID >> " ++ pidsFile cf j ++ txt " && TTY=$(tty) && test -e $TTY && oardodo chown " ++ j.user
  ++ txt ":oar $TTY && oardodo chmod 660 $TTY' && OARDO_BECOME_USER=" ++ j.user ++ txt " oardodo bash --noprofile --norc -c '" ++ startRead ++ ((entries1 cf j).map Entry.pair).flatMap exportText ++
  txt "export OAR_WORKDIR="

def read2 (cf : Conf) (j : Job) : List Char := txt ";" ++ ((entries2 cf j).map Entry.pair).flatMap exportText ++ txt "export OAR_PROJECT_NAME="

def read3 (cf : Conf) (j : Job) (shell : List Char) : List Char := txt ";" ++ ((entries3 cf j shell).map Entry.pair).flatMap exportText ++ (tailRead ++ txt "'")

theorem reads1 (u : Usual cf j ssh h shell) : Reads true (part1 cf j) false (read1 cf j) := by
  have l1 : Reads true (txt "bash -c 'echo \\$PPID >> ") true (txt "bash -c 'echo $PPID >> ") := Reads.scan (by decide)
  have l2 : Reads true (txt " && TTY=\\$(tty) && test -e \\$TTY && oardodo chown ") true (txt " && TTY=$(tty) && test -e $TTY && oardodo chown ") := Reads.scan (by decide +kernel)
  have l3 : Reads true (txt ":oar \\$TTY && oardodo chmod 660 \\$TTY' && OARDO_BECOME_USER=") true (txt ":oar $TTY && oardodo chmod 660 $TTY' && OARDO_BECOME_USER=") := Reads.scan (by decide +kernel)
  have l4 : Reads true (txt " oardodo bash --noprofile --norc -c '") true (txt " oardodo bash --noprofile --norc -c '") := Reads.scan (by decide +kernel)
  have l5 : Reads true startText true startRead := Reads.scan (by decide +kernel)
  have l6 : Reads true (txt "export OAR_WORKDIR=" ++ txt "\"") false (txt "export OAR_WORKDIR=") := Reads.scan (by decide)
  exact (((((((l1.trans (Reads.safe (pidsFile_safe j u.dir u.pids) true)).trans l2).trans (Reads.safe u.user true)).trans l3).trans (Reads.safe u.user true)).trans l4).trans l5).trans
    (reads_entries (good1 u)) |>.trans l6

theorem reads2 (u : Usual cf j ssh h shell) : Reads false (part2 cf j) false (read2 cf j) := by
  have l1 : Reads false (txt "\"" ++ txt ";") true (txt ";") := Reads.scan (by decide)
  have l2 : Reads true (txt "export OAR_PROJECT_NAME=" ++ txt "\"") false (txt "export OAR_PROJECT_NAME=") := Reads.scan (by decide)
  exact (l1.trans (reads_entries (good2 u))).trans l2

theorem reads3 (u : Usual cf j ssh h shell) : Reads false (part3 cf j shell) false (read3 cf j shell) := by
  have l1 : Reads false (txt "\"" ++ txt ";") true (txt ";") := Reads.scan (by decide)
  have l2 : Reads true (tailText ++ txt "'\"") false (tailRead ++ txt "'") := Reads.scan (by decide +kernel)
  exact (l1.trans (reads_entries (good3 u))).trans l2

theorem command_eq (u : Usual cf j ssh h shell) : command cf j h shell =
    (cf.openssh ++ (if cpuset cf j ≠ [] then txt " -oSendEnv=OAR_CPUSET " else []) ++ txt " -x " ++ txt "-t " ++ h ++ txt " ") ++
      (txt "\"" ++ part1 cf j ++ (j.directory ++ (part2 cf j ++ (j.project ++ part3 cf j shell)))) := by
  have e : txt "\"bash -c 'echo \\$PPID >> " = txt "\"" ++ txt "bash -c 'echo \\$PPID >> " := by decide
  unfold command part1 part2 part3
  rw [script_eq cf j shell u.env, e]
  simp only [List.append_assoc]

theorem node_eq (cf : Conf) (j : Job) (shell : List Char) : read1 cf j ++ (j.directory ++ (read2 cf j ++ (j.project ++ read3 cf j shell))) =
    nodeText (pidsFile cf j) j.user (exports cf j shell) := by
  have e1 : txt "bash -c 'echo $PPID >> " = txt "bash -c '" ++ txt "echo $PPID >> " := by decide
  have e2 : txt ":oar $TTY && oardodo chmod 660 $TTY' && OARDO_BECOME_USER=" = txt ":oar $TTY && oardodo chmod 660 $TTY" ++ txt "' && OARDO_BECOME_USER=" := by decide +kernel
  have e3 : txt "export OAR_WORKDIR=" = txt "export " ++ (txt "OAR_WORKDIR" ++ txt "=") := by decide
  have e4 : txt "export OAR_PROJECT_NAME=" = txt "export " ++ (txt "OAR_PROJECT_NAME" ++ txt "=") := by decide
  rw [exports_eq]
  unfold read1 read2 read3 nodeText outer inner
  rw [e1, e2, e3, e4]
  simp only [List.append_assoc, List.flatMap_append, List.flatMap_cons, startRead, tailRead]
  simp only [exportText, List.append_assoc]

/-! ### Words -/

theorem q_word {l : List Char} (hl : SafeWord l) (T : List Shell.Tok) : ShellQuotes.feed ⟨.plain, none, T⟩ l = some ⟨.plain, some l, T⟩ := by
  cases l with
  | nil => exact absurd rfl hl.1
  | cons c l =>
    have h1 : ShellQuotes.step ⟨.plain, none, T⟩ c = some ⟨.plain, some [c], T⟩ := by
      have hc := hl.2 c List.mem_cons_self
      have n9 := safe_ne (d := '#') hc (by decide)
      have e := q_safe hc false [] T
      have e' : ShellQuotes.step ⟨.plain, none, T⟩ c = ShellQuotes.step ⟨.plain, some [], T⟩ c := by
        have n1 := safe_ne (d := ' ') hc (by decide)
        have n2 := safe_ne (d := '\t') hc (by decide)
        have n3 := safe_ne (d := '\n') hc (by decide)
        have n4 := safe_ne (d := ';') hc (by decide)
        have n5 := safe_ne (d := '&') hc (by decide)
        have n6 := safe_ne (d := '|') hc (by decide)
        have n7 := safe_ne (d := '>') hc (by decide)
        have n12 := safe_ne (d := '\\') hc (by decide)
        simp [ShellQuotes.step, ShellQuotes.plainStep, ShellQuotes.St.push, n1, n2, n3, n4, n5, n6, n7, n9, n12]
      rw [e']
      exact e
    rw [ShellQuotes.feed, h1]
    exact Reads.safe (fun d hd => hl.2 d (List.mem_cons_of_mem _ hd)) false [c] T

theorem q_space (v : List Char) (T : List Shell.Tok) (r : List Char) : ShellQuotes.feed ⟨.plain, some v, T⟩ (' ' :: r) = ShellQuotes.feed ⟨.plain, none, T ++ [.word v]⟩ r := rfl

/-- Words separated by spaces; `v` is already read of the first one. -/
theorem q_spaced (ws : List (List Char)) (hw : ∀ x ∈ ws, SafeWord x) (d : List Char) (v : List Char) (T : List Shell.Tok) (hd : SafeText d) :
    ∃ init last, (v ++ d) :: ws = init ++ [last] ∧ ShellQuotes.feed ⟨.plain, some v, T⟩ (spaced (d :: ws)) = some ⟨.plain, some last, T ++ init.map .word⟩ := by
  induction ws generalizing d v T with
  | nil =>
    refine ⟨[], v ++ d, rfl, ?_⟩
    have := Reads.safe hd false v T
    simpa [mode, spaced] using this
  | cons x ws ih =>
    have hx := hw x List.mem_cons_self
    have h1 : ShellQuotes.feed ⟨.plain, some v, T⟩ d = some ⟨.plain, some (v ++ d), T⟩ := Reads.safe hd false v T
    obtain ⟨init, last, e, hf⟩ := ih (fun y hy => hw y (List.mem_cons_of_mem _ hy)) x [] (T ++ [.word (v ++ d)]) hx.2
    rw [List.nil_append] at e
    refine ⟨(v ++ d) :: init, last, by rw [e]; rfl, ?_⟩
    show ShellQuotes.feed _ (d ++ ' ' :: spaced (x :: ws)) = _
    rw [q_append, h1]
    dsimp only
    rw [q_space]
    have e2 : ∀ U r, ShellQuotes.feed ⟨.plain, none, U⟩ (x ++ r) = ShellQuotes.feed ⟨.plain, some [], U⟩ (x ++ r) := by
      intro U r
      rw [q_append, q_append, q_word hx]
      have := Reads.safe hx.2 false [] U
      rw [List.nil_append] at this
      have t : ShellQuotes.feed ⟨.plain, some [], U⟩ x = some ⟨.plain, some x, U⟩ := this
      rw [t]
    have e3 : ∃ r, spaced (x :: ws) = x ++ r := by
      cases ws with
      | nil => exact ⟨[], by rw [List.append_nil]; rfl⟩
      | cons y ws => exact ⟨_, rfl⟩
    obtain ⟨r, hr⟩ := e3
    rw [hr, e2, ← hr, hf]
    simp

theorem q_words (ws : List (List Char)) (hn : ws ≠ []) (hw : ∀ x ∈ ws, SafeWord x) (T : List Shell.Tok) :
    ∃ init last, ws = init ++ [last] ∧ ShellQuotes.feed ⟨.plain, none, T⟩ (spaced ws) = some ⟨.plain, some last, T ++ init.map .word⟩ := by
  cases ws with
  | nil => exact absurd rfl hn
  | cons x ws =>
    have hx := hw x List.mem_cons_self
    cases ws with
    | nil => exact ⟨[], x, rfl, by rw [spaced, q_word hx]; simp⟩
    | cons y ws =>
      obtain ⟨init, last, e, hf⟩ := q_spaced ws (fun z hz => hw z (List.mem_cons_of_mem _ (List.mem_cons_of_mem _ hz))) y [] (T ++ [.word x]) (hw y (List.mem_cons_of_mem _ List.mem_cons_self)).2
      rw [List.nil_append] at e
      have hy := hw y (List.mem_cons_of_mem _ List.mem_cons_self)
      refine ⟨x :: init, last, by rw [e]; rfl, ?_⟩
      show ShellQuotes.feed _ (x ++ ' ' :: spaced (y :: ws)) = _
      rw [q_append, q_word hx]
      dsimp only
      rw [q_space]
      have e2 : ∀ U r, ShellQuotes.feed ⟨.plain, none, U⟩ (y ++ r) = ShellQuotes.feed ⟨.plain, some [], U⟩ (y ++ r) := by
        intro U r
        rw [q_append, q_append, q_word hy]
        have := Reads.safe hy.2 false [] U
        rw [List.nil_append] at this
        have t : ShellQuotes.feed ⟨.plain, some [], U⟩ y = some ⟨.plain, some y, U⟩ := this
        rw [t]
      have e3 : ∃ r, spaced (y :: ws) = y ++ r := by
        cases ws with
        | nil => exact ⟨[], by rw [List.append_nil]; rfl⟩
        | cons z ws => exact ⟨_, rfl⟩
      obtain ⟨r, hr⟩ := e3
      rw [hr, e2, ← hr, hf]
      simp

/-- The words of ssh. -/
theorem q_head (u : Usual cf j ssh h shell) :
    ShellQuotes.feed {} (cf.openssh ++ (if cpuset cf j ≠ [] then txt " -oSendEnv=OAR_CPUSET " else []) ++ txt " -x " ++ txt "-t " ++ h ++ txt " ") =
      some ⟨.plain, none, (sshWords cf j ssh h).map .word⟩ := by
  obtain ⟨init, last, e, hf⟩ := q_words ssh u.ssh_some u.ssh_safe []
  have h0 : ShellQuotes.feed {} cf.openssh = some ⟨.plain, some last, init.map .word⟩ := by
    rw [u.ssh_text]
    exact hf
  have h3 : ∀ T : List Shell.Tok, ShellQuotes.feed ⟨.plain, some h, T⟩ (txt " ") = some ⟨.plain, none, T ++ [.word h]⟩ := fun T => rfl
  unfold sshWords
  by_cases hc : cpuset cf j ≠ []
  · rw [if_pos hc, if_pos hc]
    have h1 : ∀ T : List Shell.Tok, ShellQuotes.feed ⟨.plain, some last, T⟩ (txt " -oSendEnv=OAR_CPUSET ") = some ⟨.plain, none, T ++ [.word last] ++ [.word (txt "-oSendEnv=OAR_CPUSET")]⟩ := by
      intro T
      have k1 : ShellQuotes.feed ⟨.plain, some last, T⟩ [' '] = some ⟨.plain, none, T ++ [.word last]⟩ := rfl
      have k2 := q_then k1 (q_word (l := txt "-oSendEnv") (by decide) _)
      have k3 : ∀ v U, ShellQuotes.feed ⟨.plain, some v, U⟩ ['='] = some ⟨.plain, some (v ++ ['=']), U⟩ := fun v U => rfl
      have k4 := q_then (q_then k2 (k3 _ _)) (Reads.safe (l := txt "OAR_CPUSET") (by decide) false _ _)
      have k5 : ∀ v U, ShellQuotes.feed ⟨.plain, some v, U⟩ [' '] = some ⟨.plain, none, U ++ [.word v]⟩ := fun v U => rfl
      have k6 := q_then k4 (k5 _ _)
      exact k6
    have h2 : ∀ T : List Shell.Tok, ShellQuotes.feed ⟨.plain, none, T⟩ (txt " -x " ++ txt "-t ") = some ⟨.plain, none, T ++ [.word (txt "-x")] ++ [.word (txt "-t")]⟩ := fun T => rfl
    have := q_then (q_then (q_then (q_then h0 (h1 _)) (h2 _)) (q_word u.host _)) (h3 _)
    simp only [List.append_assoc] at this ⊢
    rw [this, e]
    simp
  · rw [if_neg hc, if_neg hc]
    have h2 : ∀ T : List Shell.Tok, ShellQuotes.feed ⟨.plain, some last, T⟩ (txt " -x " ++ txt "-t ") = some ⟨.plain, none, T ++ [.word last] ++ [.word (txt "-x")] ++ [.word (txt "-t")]⟩ := fun T => rfl
    have := q_then (q_then (q_then h0 (h2 _)) (q_word u.host _)) (h3 _)
    simp only [List.append_assoc, List.nil_append] at this ⊢
    rw [this, e]
    simp

theorem parse_words (ws : List (List Char)) (c : Shell.Cmd) (hc : c ≠ []) (p : Shell.Sep) : Shell.parse (ws.map .word) p c = some [(p, c ++ ws.map .word)] := by
  induction ws generalizing c with
  | nil =>
    cases c with
    | nil => exact absurd rfl hc
    | cons a c => simp [Shell.parse]
  | cons x ws ih =>
    show Shell.parse (ws.map .word) p (c ++ [Shell.Tok.word x]) = _
    rw [ih (c ++ [Shell.Tok.word x]) (by simp)]
    simp

theorem parse_words' (ws : List (List Char)) (hn : ws ≠ []) (p : Shell.Sep) : Shell.parse (ws.map .word) p [] = some [(p, ws.map .word)] := by
  cases ws with
  | nil => exact absurd rfl hn
  | cons x ws => exact parse_words ws [.word x] (by simp) p

theorem parse_semi (ws : List (List Char)) (c : Shell.Cmd) (hn : c ++ ws.map Shell.Tok.word ≠ []) (p : Shell.Sep) (r : List Shell.Tok) : Shell.parse (ws.map .word ++ .sep .semi :: r) p c =
    (Shell.parse r .semi []).map (fun l => (p, c ++ ws.map .word) :: l) := by
  induction ws generalizing c with
  | nil =>
    cases c with
    | nil => exact absurd rfl hn
    | cons a c => simp [Shell.parse]
  | cons x ws ih =>
    show Shell.parse (ws.map .word ++ .sep .semi :: r) p (c ++ [Shell.Tok.word x]) = _
    rw [ih (c ++ [Shell.Tok.word x]) (by simp)]
    simp

theorem spaced_snoc (init : List (List Char)) (last r : List Char) : spaced (init ++ [last ++ r]) = spaced (init ++ [last]) ++ r := by
  induction init with
  | nil => rfl
  | cons x init ih =>
    cases init with
    | nil => show x ++ ' ' :: (last ++ r) = (x ++ ' ' :: last) ++ r; simp
    | cons y init =>
      show x ++ ' ' :: spaced ((y :: init) ++ [last ++ r]) = (x ++ ' ' :: spaced ((y :: init) ++ [last])) ++ r
      rw [ih]; simp

theorem spaced_front (v d : List Char) (ws : List (List Char)) : spaced ((v ++ d) :: ws) = v ++ spaced (d :: ws) := by
  cases ws with
  | nil => rfl
  | cons y ws => simp [spaced]

/-- **C111.** When the fields of the job have no character with a meaning for a shell, but maybe spaces in the directory, the local shell executes one command: ssh, with the text of the node as last
words (ssh joins them with spaces). -/
theorem local_exact (u : Usual cf j ssh h shell) {d : List Char} {ds : List (List Char)} (hdir : j.directory = spaced (d :: ds)) (hd : ∀ x ∈ d :: ds, SafeWord x) (hp : SafeText j.project) :
    ∃ xs, ShellQuotes.commands (command cf j h shell) = some [(.newline, (sshWords cf j ssh h ++ xs).map .word)] ∧ spaced xs = nodeText (cf.dir ++ txt "/" ++ cf.pidsPrefix ++ str j.id) j.user (exports cf j shell) := by
  have h0 := q_head u
  have h1 : ∀ T : List Shell.Tok, ShellQuotes.feed ⟨.plain, none, T⟩ (txt "\"") = some ⟨.double, some [], T⟩ := fun T => rfl
  have h2 := q_then (h1 ((sshWords cf j ssh h).map .word)) (reads1 u [] _)
  obtain ⟨init, last, e, hf⟩ := q_spaced ds (fun x hx => hd x (List.mem_cons_of_mem _ hx)) d ([] ++ read1 cf j) ((sshWords cf j ssh h).map .word) (hd d List.mem_cons_self).2
  have h3 := ((reads2 u).trans ((Reads.safe hp false).trans (reads3 u))) last ((sshWords cf j ssh h).map .word ++ init.map .word)
  have h4 := q_then h0 (q_then h2 (q_then hf h3))
  rw [← hdir, ← command_eq u] at h4
  refine ⟨init ++ [last ++ (read2 cf j ++ (j.project ++ read3 cf j shell))], ?_, ?_⟩
  · unfold ShellQuotes.commands
    rw [h4]
    show Shell.parse (((sshWords cf j ssh h).map Shell.Tok.word ++ init.map .word) ++ [.word (last ++ (read2 cf j ++ (j.project ++ read3 cf j shell)))]) .newline [] = _
    rw [show ((sshWords cf j ssh h).map Shell.Tok.word ++ init.map .word) ++ [.word (last ++ (read2 cf j ++ (j.project ++ read3 cf j shell)))] =
      (sshWords cf j ssh h ++ (init ++ [last ++ (read2 cf j ++ (j.project ++ read3 cf j shell))])).map .word by simp]
    exact parse_words' _ (by simp) _
  · have hn := node_eq cf j shell
    unfold pidsFile at hn
    rw [spaced_snoc, ← e, List.nil_append, spaced_front, ← hdir, ← hn, List.append_assoc]

/-- **C111, violated.** Nothing checks the project of a submission: whatever the words `c`, the project `;c;` makes the local shell - the one of the user `oar` of the frontend - execute `c`. -/
theorem project_violated (u : Usual cf j ssh h shell) {d : List Char} {ds : List (List Char)} (hdir : j.directory = spaced (d :: ds)) (hd : ∀ x ∈ d :: ds, SafeWord x)
    (c : List (List Char)) (hc : c ≠ []) (hs : ∀ x ∈ c, SafeWord x) (hp : j.project = txt ";" ++ spaced c ++ txt ";") :
    ∃ a b, ShellQuotes.commands (command cf j h shell) = some [(.newline, a), (.semi, c.map .word), (.semi, b)] ∧
      ∀ ok, Shell.run ok [] true [(.newline, a), (.semi, c.map .word), (.semi, b)] = [a, c.map .word, b] := by
  have h0 := q_head u
  have h1 : ∀ T : List Shell.Tok, ShellQuotes.feed ⟨.plain, none, T⟩ (txt "\"") = some ⟨.double, some [], T⟩ := fun T => rfl
  have h2 := q_then (h1 ((sshWords cf j ssh h).map .word)) (reads1 u [] _)
  obtain ⟨init, last, e, hf⟩ := q_spaced ds (fun x hx => hd x (List.mem_cons_of_mem _ hx)) d ([] ++ read1 cf j) ((sshWords cf j ssh h).map .word) (hd d List.mem_cons_self).2
  have h3 := (reads2 u) last ((sshWords cf j ssh h).map .word ++ init.map .word)
  have h4 : ∀ (v : List Char) (T : List Shell.Tok), ShellQuotes.feed ⟨.plain, some v, T⟩ (txt ";") = some ⟨.plain, none, T ++ [.word v] ++ [.sep .semi]⟩ := fun v T => rfl
  obtain ⟨init2, last2, e2, hf2⟩ := q_words c hc hs (((sshWords cf j ssh h).map .word ++ init.map .word) ++ [.word (last ++ read2 cf j)] ++ [.sep .semi])
  have h5 : ∀ (T : List Shell.Tok), ShellQuotes.feed ⟨.plain, none, T⟩ (part3 cf j shell) = some ⟨.plain, some (read3 cf j shell), T⟩ := by
    intro T
    have h6 := reads3 u [] T
    have h7 : ∀ r, ShellQuotes.feed ⟨.plain, none, T⟩ ((txt "\"" ++ txt ";") ++ r) = ShellQuotes.feed ⟨.plain, some [], T⟩ ((txt "\"" ++ txt ";") ++ r) := fun r => rfl
    unfold part3 at h6 ⊢
    rw [List.append_assoc, h7, ← List.append_assoc]
    exact h6
  have h6 := q_then h0 (q_then h2 (q_then hf (q_then h3 (q_then (q_then (q_then (h4 _ _) hf2) (h4 _ _)) (h5 _)))))
  rw [← hp, ← hdir, ← command_eq u] at h6
  refine ⟨(sshWords cf j ssh h ++ init ++ [last ++ read2 cf j]).map .word, [.word (read3 cf j shell)], ?_, ?_⟩
  · unfold ShellQuotes.commands
    rw [h6]
    dsimp only [ShellQuotes.finish, ShellQuotes.St.flush]
    have e3 : (sshWords cf j ssh h).map Shell.Tok.word ++ init.map Shell.Tok.word ++ [Shell.Tok.word (last ++ read2 cf j)] ++ [Shell.Tok.sep .semi] ++ init2.map Shell.Tok.word ++ [Shell.Tok.word last2] ++
        [Shell.Tok.sep .semi] ++ [Shell.Tok.word (read3 cf j shell)] =
        (sshWords cf j ssh h ++ init ++ [last ++ read2 cf j]).map Shell.Tok.word ++ Shell.Tok.sep .semi :: (c.map Shell.Tok.word ++ Shell.Tok.sep .semi :: [Shell.Tok.word (read3 cf j shell)]) := by
      rw [e2]; simp
    rw [e3, parse_semi _ [] (by simp), parse_semi _ [] (by simpa using hc)]
    rfl
  · intro ok
    rfl

/-! ### The node -/

theorem reads_node {c : Char} (hc : Safe c ∨ c = '$') (v : List Char) (T : List Shell.Tok) : Shell.step ⟨.plain, some v, T⟩ c = some ⟨.plain, some (v ++ [c]), T⟩ := by
  have ne : ∀ d, ¬ Safe d → d ≠ '$' → c ≠ d := by
    rintro d hd hd' rfl
    exact hc.elim hd hd'
  have n1 := ne ' ' (by decide) (by decide)
  have n2 := ne '\t' (by decide) (by decide)
  have n3 := ne '\n' (by decide) (by decide)
  have n4 := ne ';' (by decide) (by decide)
  have n5 := ne '&' (by decide) (by decide)
  have n6 := ne '|' (by decide) (by decide)
  have n7 := ne '>' (by decide) (by decide)
  have n8 := ne '\'' (by decide) (by decide)
  have n9 := ne '#' (by decide) (by decide)
  have n10 := ne '(' (by decide) (by decide)
  have n11 := ne '"' (by decide) (by decide)
  have n12 := ne '\\' (by decide) (by decide)
  have n13 := ne '`' (by decide) (by decide)
  have n14 := ne '<' (by decide) (by decide)
  have n15 := ne ')' (by decide) (by decide)
  simp [Shell.step, Shell.plainStep, Shell.St.push, n1, n2, n3, n4, n5, n6, n7, n8, n9, n10, n11, n12, n13, n14, n15]

theorem feed_value {l : List Char} (hl : ∀ c ∈ l, Safe c ∨ c = '$') (v : List Char) (T : List Shell.Tok) : Shell.feed ⟨.plain, some v, T⟩ l = some ⟨.plain, some (v ++ l), T⟩ := by
  induction l generalizing v with
  | nil => simp [Shell.feed]
  | cons c l ih =>
    rw [Shell.feed, reads_node (hl c List.mem_cons_self)]
    dsimp only
    rw [ih (fun d hd => hl d (List.mem_cons_of_mem _ hd)), List.append_assoc]
    rfl

theorem feed_safe0 {l : List Char} (hl : SafeWord l) (T : List Shell.Tok) : Shell.feed ⟨.plain, none, T⟩ l = some ⟨.plain, some l, T⟩ := by
  cases l with
  | nil => exact absurd rfl hl.1
  | cons c l =>
    have hc := hl.2 c List.mem_cons_self
    have e : Shell.step ⟨.plain, none, T⟩ c = some ⟨.plain, some [c], T⟩ := by
      have n1 := safe_ne (d := ' ') hc (by decide)
      have n2 := safe_ne (d := '\t') hc (by decide)
      have n3 := safe_ne (d := '\n') hc (by decide)
      have n4 := safe_ne (d := ';') hc (by decide)
      have n5 := safe_ne (d := '&') hc (by decide)
      have n6 := safe_ne (d := '|') hc (by decide)
      have n7 := safe_ne (d := '>') hc (by decide)
      have n8 := safe_ne (d := '\'') hc (by decide)
      have n9 := safe_ne (d := '#') hc (by decide)
      have n10 := safe_ne (d := '(') hc (by decide)
      have n11 := safe_ne (d := '"') hc (by decide)
      have n12 := safe_ne (d := '\\') hc (by decide)
      have n13 := safe_ne (d := '`') hc (by decide)
      have n14 := safe_ne (d := '<') hc (by decide)
      have n15 := safe_ne (d := ')') hc (by decide)
      simp [Shell.step, Shell.plainStep, Shell.St.push, n1, n2, n3, n4, n5, n6, n7, n8, n9, n10, n11, n12, n13, n14, n15]
    rw [Shell.feed, e]
    exact feed_value (fun d hd => Or.inl (hl.2 d (List.mem_cons_of_mem _ hd))) [c] T

/-- The text of the node without the quote that ends the scripts. -/
theorem safe_no_quote {l : List Char} (hl : SafeText l) : '\'' ∉ l := fun hh => safe_ne (hl _ hh) (d := '\'') (by decide) rfl

theorem outer_no_quote {pids user : List Char} (hp : SafeText pids) (hu : SafeText user) : '\'' ∉ outer pids user := by
  unfold outer
  simp only [List.mem_append, not_or]
  exact ⟨⟨⟨⟨by decide, safe_no_quote hp⟩, by decide +kernel⟩, safe_no_quote hu⟩, by decide +kernel⟩

theorem inner_no_quote {es : List (List Char × List Char)} (he : ∀ e ∈ es, '\'' ∉ e.1 ∧ '\'' ∉ e.2) : '\'' ∉ inner es := by
  unfold inner
  simp only [List.mem_append, not_or]
  refine ⟨⟨by decide +kernel, ?_⟩, by decide +kernel⟩
  intro hm
  obtain ⟨e, hm, hc⟩ := List.mem_flatMap.1 hm
  unfold exportText at hc
  simp only [List.mem_append] at hc
  rcases hc with (((hc | hc) | hc) | hc) | hc
  · exact absurd hc (by decide)
  · exact (he e hm).1 hc
  · exact absurd hc (by decide)
  · exact (he e hm).2 hc
  · exact absurd hc (by decide)

/-- The shell of the node reads the two commands. -/
theorem node_parse {pids user : List Char} (hp : SafeText pids) (hu : SafeText user) {es : List (List Char × List Char)} (he : ∀ e ∈ es, '\'' ∉ e.1 ∧ '\'' ∉ e.2) :
    Shell.commands (nodeText pids user es) = some (nodeCommands pids user es) := by
  have h1 : Shell.feed {} (txt "bash -c '") = some ⟨.quote, some [], [.word (txt "bash"), .word (txt "-c")]⟩ := by decide +kernel
  have h2 := Signal.feed_then h1 (Signal.feed_quote _ (outer_no_quote hp hu) [] _)
  have h3 : ∀ v : List Char, Shell.feed ⟨.quote, some v, [.word (txt "bash"), .word (txt "-c")]⟩ (txt "' && ") =
      some ⟨.plain, none, [.word (txt "bash"), .word (txt "-c"), .word v, .sep .andIf]⟩ := fun v => rfl
  have h4 : ∀ T : List Shell.Tok, Shell.feed ⟨.plain, none, T⟩ (txt "OARDO_BECOME_USER=") = some ⟨.plain, some (txt "OARDO_BECOME_USER="), T⟩ := fun T => rfl
  have h5 := Signal.feed_then (Signal.feed_then (Signal.feed_then h2 (h3 _)) (h4 _)) (feed_value (fun c hc => Or.inl (hu c hc)) _ _)
  have h6 : ∀ (v : List Char) (T : List Shell.Tok), Shell.feed ⟨.plain, some v, T⟩ (txt " oardodo bash ") = some ⟨.plain, none, T ++ [.word v] ++ [.word (txt "oardodo")] ++ [.word (txt "bash")]⟩ := fun v T => rfl
  have h7 : ∀ (T : List Shell.Tok), Shell.feed ⟨.plain, none, T⟩ (txt "--noprofile --norc ") = some ⟨.plain, none, T ++ [.word (txt "--noprofile")] ++ [.word (txt "--norc")]⟩ := fun T => rfl
  have h8 : ∀ (T : List Shell.Tok), Shell.feed ⟨.plain, none, T⟩ (txt "-c '") = some ⟨.quote, some [], T ++ [.word (txt "-c")]⟩ := fun T => rfl
  have h9 := Signal.feed_then (Signal.feed_then (Signal.feed_then (Signal.feed_then h5 (h6 _ _)) (h7 _)) (h8 _)) (Signal.feed_quote _ (inner_no_quote he) [] _)
  have h10 : ∀ (v : List Char) (T : List Shell.Tok), Shell.feed ⟨.quote, some v, T⟩ (txt "'") = some ⟨.plain, some v, T⟩ := fun v T => rfl
  have h11 := Signal.feed_then h9 (h10 _ _)
  have e1 : txt "' && OARDO_BECOME_USER=" = txt "' && " ++ txt "OARDO_BECOME_USER=" := by decide
  have e2 : txt " oardodo bash --noprofile --norc -c '" = txt " oardodo bash " ++ txt "--noprofile --norc " ++ txt "-c '" := by decide +kernel
  have e3 : nodeText pids user es = txt "bash -c '" ++ outer pids user ++ txt "' && " ++ txt "OARDO_BECOME_USER=" ++ user ++ txt " oardodo bash " ++ txt "--noprofile --norc " ++ txt "-c '" ++ inner es ++ txt "'" := by
    unfold nodeText
    rw [e1, e2]
    simp only [List.append_assoc]
  unfold Shell.commands Shell.lex
  rw [e3, h11]
  rfl

/-- The text of the variables. -/
theorem feed_export {n : List Char} (hn : SafeText n) {v : List Char} (hv : ∀ c ∈ v, Safe c ∨ c = '$') (ws : List (List Char)) (hw : ∀ x ∈ ws, SafeWord x) (T : List Shell.Tok) :
    Shell.feed ⟨.plain, none, T⟩ (exportText (n, spaced (v :: ws))) = some ⟨.plain, none, T ++ ([.word (txt "export"), .word (n ++ txt "=" ++ v)] ++ ws.map .word ++ [.sep .semi])⟩ := by
  have h1 : ∀ T : List Shell.Tok, Shell.feed ⟨.plain, none, T⟩ (txt "export ") = some ⟨.plain, none, T ++ [.word (txt "export")]⟩ := fun T => rfl
  have h2 : ∀ T : List Shell.Tok, Shell.feed ⟨.plain, none, T⟩ (n ++ txt "=") = some ⟨.plain, some (n ++ txt "="), T⟩ := by
    intro T
    cases n with
    | nil => rfl
    | cons c n =>
      refine Signal.feed_then (feed_safe0 ⟨List.cons_ne_nil _ _, hn⟩ T) ?_
      rfl
  have h3 : ∀ (ws : List (List Char)) (_ : ∀ x ∈ ws, SafeWord x) (p v : List Char) (_ : ∀ c ∈ v, Safe c ∨ c = '$') (T : List Shell.Tok),
      Shell.feed ⟨.plain, some p, T⟩ (spaced (v :: ws) ++ txt ";") = some ⟨.plain, none, T ++ ([.word (p ++ v)] ++ ws.map .word ++ [.sep .semi])⟩ := by
    intro ws
    induction ws with
    | nil =>
      intro _ p v hv T
      have := Signal.feed_then (feed_value hv p T) (show Shell.feed _ (txt ";") = some ⟨.plain, none, T ++ [.word (p ++ v)] ++ [.sep .semi]⟩ from rfl)
      simpa [spaced] using this
    | cons x ws ih =>
      intro hw p v hv T
      have hx := hw x List.mem_cons_self
      have k1 := Signal.feed_then (feed_value hv p T) (show Shell.feed _ [' '] = some ⟨.plain, none, T ++ [.word (p ++ v)]⟩ from rfl)
      have k2 : ∀ U r, Shell.feed ⟨.plain, none, U⟩ (x ++ r) = Shell.feed ⟨.plain, some [], U⟩ (x ++ r) := by
        intro U r
        rw [Signal.feed_append, Signal.feed_append, feed_safe0 hx, feed_value (fun c hc => Or.inl (hx.2 c hc))]
        rfl
      have k3 : ∃ r, spaced (x :: ws) = x ++ r := by
        cases ws with
        | nil => exact ⟨[], by rw [List.append_nil]; rfl⟩
        | cons y ws => exact ⟨_, rfl⟩
      obtain ⟨r, hr⟩ := k3
      have k4 := ih (fun y hy => hw y (List.mem_cons_of_mem _ hy)) [] x (fun c hc => Or.inl (hx.2 c hc)) (T ++ [.word (p ++ v)])
      rw [hr, List.append_assoc, ← k2, ← List.append_assoc, ← hr] at k4
      have k5 := Signal.feed_then k1 k4
      have e : spaced (v :: x :: ws) ++ txt ";" = (v ++ [' ']) ++ (spaced (x :: ws) ++ txt ";") := by simp [spaced]
      rw [e, k5]
      simp
  have h4 := Signal.feed_then (Signal.feed_then (h1 T) (h2 _)) (h3 ws hw _ v hv _)
  have e : exportText (n, spaced (v :: ws)) = (txt "export " ++ (n ++ txt "=")) ++ (spaced (v :: ws) ++ txt ";") := by
    unfold exportText
    simp only [List.append_assoc]
  rw [e, h4]
  simp

/-- A list of variables, each with the first word of its value and the others. -/
theorem run_exports (ok : List Shell.Cmd → Shell.Cmd → Bool) (es : List (List Char × List Char × List (List Char)))
    (he : ∀ e ∈ es, SafeText e.1 ∧ (∀ c ∈ e.2.1, Safe c ∨ c = '$') ∧ ∀ x ∈ e.2.2, SafeWord x) :
    (Shell.commands ((es.map (fun e => (e.1, spaced (e.2.1 :: e.2.2)))).flatMap exportText)).map (Shell.run ok [] true) =
      some (es.map (fun e => exportCmd (e.1, e.2.1) ++ e.2.2.map .word)) := by
  have h1 : ∀ T : List Shell.Tok, Shell.feed ⟨.plain, none, T⟩ ((es.map (fun e => (e.1, spaced (e.2.1 :: e.2.2)))).flatMap exportText) =
      some ⟨.plain, none, T ++ es.flatMap (fun e => exportCmd (e.1, e.2.1) ++ e.2.2.map .word ++ [.sep .semi])⟩ := by
    induction es with
    | nil => intro T; simp [Shell.feed]
    | cons e es ih =>
      intro T
      obtain ⟨a, b, c⟩ := he e List.mem_cons_self
      have k := Signal.feed_then (feed_export a b e.2.2 c T) (ih (fun x hx => he x (List.mem_cons_of_mem _ hx)) _)
      rw [List.map_cons, List.flatMap_cons, k]
      simp [exportCmd]
  have h2 : ∀ p : Shell.Sep, (p = .newline ∨ p = .semi) → ∃ l, Shell.parse (es.flatMap (fun e => exportCmd (e.1, e.2.1) ++ e.2.2.map .word ++ [.sep .semi])) p [] = some l ∧
      ∀ h last, Shell.run ok h last l = h ++ es.map (fun e => exportCmd (e.1, e.2.1) ++ e.2.2.map .word) := by
    clear h1
    induction es with
    | nil =>
      intro p hp
      refine ⟨[], ?_, fun h last => by simp [Shell.run]⟩
      rcases hp with rfl | rfl <;> rfl
    | cons e es ih =>
      intro p hp
      obtain ⟨l, hl, hr⟩ := ih (fun x hx => he x (List.mem_cons_of_mem _ hx)) .semi (Or.inr rfl)
      refine ⟨(p, exportCmd (e.1, e.2.1) ++ e.2.2.map .word) :: l, ?_, ?_⟩
      · have e1 : (e :: es).flatMap (fun e => exportCmd (e.1, e.2.1) ++ e.2.2.map Shell.Tok.word ++ [.sep .semi]) =
          (txt "export" :: (e.1 ++ txt "=" ++ e.2.1) :: e.2.2).map Shell.Tok.word ++ .sep .semi :: es.flatMap (fun e => exportCmd (e.1, e.2.1) ++ e.2.2.map .word ++ [.sep .semi]) := by
          simp [exportCmd]
        rw [e1, parse_semi _ [] (by simp), hl]
        simp [exportCmd]
      · intro h last
        have np : ¬ ((p = .andIf ∧ last = false) ∨ (p = .orIf ∧ last = true)) := by
          rcases hp with rfl | rfl <;> simp
        rw [Shell.run, if_neg np, hr]
        simp
  obtain ⟨l, hl, hr⟩ := h2 .newline (Or.inl rfl)
  have h3 : Shell.feed {} ((es.map (fun e => (e.1, spaced (e.2.1 :: e.2.2)))).flatMap exportText) = _ := h1 []
  unfold Shell.commands Shell.lex
  rw [h3]
  dsimp only [Shell.finish, Shell.St.flush]
  rw [List.nil_append, hl]
  show some (Shell.run ok [] true l) = _
  rw [hr]
  rfl

end

end Oar.Connect
