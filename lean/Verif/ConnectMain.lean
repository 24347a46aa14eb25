import Verif.ConnectProps

/-!
# C111: the connection to a job - property theorems
-/

namespace Oar.Connect
open Oar.Tools

section
variable {cf : Conf} {j : Job} {ssh : List (List Char)} {h shell : List Char}

theorem good_no_quote {e : Entry} (he : Good e) : '\'' ∉ e.pair.1 ∧ '\'' ∉ e.pair.2 := by
  refine ⟨safe_no_quote he.1, fun hm => ?_⟩
  rcases he.2.2 _ hm with hc | hc
  · exact absurd hc (by decide)
  · exact absurd hc (by decide)

theorem spaced_no_quote (ws : List (List Char)) (hw : ∀ x ∈ ws, SafeWord x) : '\'' ∉ spaced ws := by
  induction ws with
  | nil => simp [spaced]
  | cons x ws ih =>
    have hx := safe_no_quote (hw x List.mem_cons_self).2
    have hr := ih (fun y hy => hw y (List.mem_cons_of_mem _ hy))
    cases ws with
    | nil => exact hx
    | cons y ws =>
      show '\'' ∉ x ++ ' ' :: spaced (y :: ws)
      simp only [List.mem_append, List.mem_cons, not_or]
      exact ⟨hx, by decide, hr⟩

/-- **C111.** The node executes two commands: as `oar`, the terminal is given to the user of the job; then, if this succeeds, the script is executed as the user of the job. -/
theorem node_exact (u : Usual cf j ssh h shell) {d : List Char} {ds : List (List Char)} (hdir : j.directory = spaced (d :: ds)) (hd : ∀ x ∈ d :: ds, SafeWord x) (hp : SafeText j.project) :
    Shell.commands (nodeText (cf.dir ++ txt "/" ++ cf.pidsPrefix ++ str j.id) j.user (exports cf j shell)) =
      some (nodeCommands (cf.dir ++ txt "/" ++ cf.pidsPrefix ++ str j.id) j.user (exports cf j shell)) := by
  refine node_parse (pidsFile_safe j u.dir u.pids) u.user ?_
  have hm : ∀ es : List Entry, (∀ e ∈ es, Good e) → ∀ x ∈ es.map Entry.pair, '\'' ∉ x.1 ∧ '\'' ∉ x.2 := by
    intro es hes x hx
    obtain ⟨e, he, rfl⟩ := List.mem_map.1 hx
    exact good_no_quote (hes e he)
  intro e he
  rw [exports_eq] at he
  rcases List.mem_append.1 he with he | he
  · exact hm _ (good1 u) e he
  · rcases List.mem_cons.1 he with rfl | he
    · exact ⟨(by decide : '\'' ∉ txt "OAR_WORKDIR"), by rw [hdir]; exact spaced_no_quote _ hd⟩
    · rcases List.mem_append.1 he with he | he
      · exact hm _ (good2 u) e he
      · rcases List.mem_cons.1 he with rfl | he
        · exact ⟨(by decide : '\'' ∉ txt "OAR_PROJECT_NAME"), safe_no_quote hp⟩
        · exact hm _ (good3 u) e he

theorem names_ne (cf : Conf) (j : Job) (shell : List Char) : ∀ e ∈ entries1 cf j ++ entries2 cf j ++ entries3 cf j shell, e.name ≠ txt "OAR_WORKDIR" := by
  have h1 : ∀ n ∈ (entries1 cf j).map Entry.name, n ≠ txt "OAR_WORKDIR" := by
    show ∀ n ∈ [txt "OAR_FILE_NODES", txt "OAR_JOBID", txt "OAR_ARRAYID", txt "OAR_ARRAYINDEX", txt "OAR_USER"], n ≠ txt "OAR_WORKDIR"
    decide
  have h2 : ∀ n ∈ (entries2 cf j).map Entry.name, n ≠ txt "OAR_WORKDIR" := by
    show ∀ n ∈ [txt "OAR_RESOURCE_PROPERTIES_FILE", txt "OAR_NODEFILE", txt "OAR_O_WORKDIR", txt "OAR_NODE_FILE", txt "OAR_RESOURCE_FILE", txt "OAR_WORKING_DIRECTORY", txt "OAR_JOB_ID",
      txt "OAR_ARRAY_ID", txt "OAR_ARRAY_INDEX", txt "OAR_JOB_NAME"], n ≠ txt "OAR_WORKDIR"
    decide +kernel
  have h3 : ∀ n ∈ (entries3 cf j shell).map Entry.name, n ≠ txt "OAR_WORKDIR" := by
    unfold entries3
    cases cf.proxyUrl with
    | none =>
      show ∀ n ∈ [txt "OAR_JOB_WALLTIME", txt "OAR_JOB_WALLTIME_SECONDS", txt "SHELL"], n ≠ txt "OAR_WORKDIR"
      decide
    | some x =>
      show ∀ n ∈ [txt "OAR_JOB_WALLTIME", txt "OAR_JOB_WALLTIME_SECONDS", txt "OAR_PROXY_BASE_URL", txt "SHELL"], n ≠ txt "OAR_WORKDIR"
      decide
  intro e he
  rcases List.mem_append.1 he with he | he
  · rcases List.mem_append.1 he with he | he
    · exact h1 _ (List.mem_map_of_mem he)
    · exact h2 _ (List.mem_map_of_mem he)
  · exact h3 _ (List.mem_map_of_mem he)

/-- **C111.** The part of the script that sets the variables sets exactly those of `exports`; but of a directory with spaces (`ds` not empty) only the first word is kept. -/
theorem exports_exact (u : Usual cf j ssh h shell) {d : List Char} {ds : List (List Char)} (hdir : j.directory = spaced (d :: ds)) (hd : ∀ x ∈ d :: ds, SafeWord x) (hp : SafeText j.project)
    (ok : List Shell.Cmd → Shell.Cmd → Bool) :
    (Shell.commands ((exports cf j shell).flatMap exportText)).map (Shell.run ok [] true) =
      some ((exports cf { j with directory := d } shell).map (fun e => exportCmd e ++ if e.1 = txt "OAR_WORKDIR" then ds.map .word else [])) := by
  let f : Entry → List Char × List Char × List (List Char) := fun e => (e.name, e.value, [])
  let es := (entries1 cf j).map f ++ (txt "OAR_WORKDIR", d, ds) :: ((entries2 cf j).map f ++ (txt "OAR_PROJECT_NAME", j.project, []) :: (entries3 cf j shell).map f)
  have h1 : es.map (fun e => (e.1, spaced (e.2.1 :: e.2.2))) = exports cf j shell := by
    rw [exports_eq]
    show List.map _ ((entries1 cf j).map f ++ (txt "OAR_WORKDIR", d, ds) :: ((entries2 cf j).map f ++ (txt "OAR_PROJECT_NAME", j.project, []) :: (entries3 cf j shell).map f)) = _
    simp only [List.map_append, List.map_cons, List.map_map, hdir]
    rfl
  have h2 : es.map (fun e => exportCmd (e.1, e.2.1) ++ e.2.2.map Shell.Tok.word) =
      (exports cf { j with directory := d } shell).map (fun e => exportCmd e ++ if e.1 = txt "OAR_WORKDIR" then ds.map .word else []) := by
    have hm : ∀ xs : List Entry, (∀ e ∈ xs, e.name ≠ txt "OAR_WORKDIR") → (xs.map f).map (fun e => exportCmd (e.1, e.2.1) ++ e.2.2.map Shell.Tok.word) =
        (xs.map Entry.pair).map (fun e => exportCmd e ++ if e.1 = txt "OAR_WORKDIR" then ds.map Shell.Tok.word else []) := by
      intro xs hx
      rw [List.map_map, List.map_map]
      apply List.map_congr_left
      intro e he
      show exportCmd (e.name, e.value) ++ [] = exportCmd (e.name, e.value) ++ if e.name = txt "OAR_WORKDIR" then _ else []
      rw [if_neg (hx e he)]
    have hn := names_ne cf j shell
    rw [exports_eq]
    show List.map _ ((entries1 cf j).map f ++ (txt "OAR_WORKDIR", d, ds) :: ((entries2 cf j).map f ++ (txt "OAR_PROJECT_NAME", j.project, []) :: (entries3 cf j shell).map f)) =
      List.map _ ((entries1 cf j).map Entry.pair ++ (txt "OAR_WORKDIR", d) :: ((entries2 cf j).map Entry.pair ++ (txt "OAR_PROJECT_NAME", j.project) :: (entries3 cf j shell).map Entry.pair))
    rw [List.map_append, List.map_append, List.map_cons, List.map_cons, List.map_append, List.map_append, List.map_cons, List.map_cons,
      hm _ (fun e he => hn e (by simp [he])), hm _ (fun e he => hn e (by simp [he])), hm _ (fun e he => hn e (by simp [he]))]
    rfl
  rw [← h1, ← h2]
  refine run_exports ok es ?_
  have hm : ∀ xs : List Entry, (∀ e ∈ xs, Good e) → ∀ e ∈ xs.map f, SafeText e.1 ∧ (∀ c ∈ e.2.1, Safe c ∨ c = '$') ∧ ∀ x ∈ e.2.2, SafeWord x := by
    intro xs hx e he
    obtain ⟨y, hy, rfl⟩ := List.mem_map.1 he
    exact ⟨(hx y hy).1, (hx y hy).2.2, fun x hx => by cases hx⟩
  intro e he
  rcases List.mem_append.1 he with he | he
  · exact hm _ (good1 u) e he
  · rcases List.mem_cons.1 he with rfl | he
    · exact ⟨(by decide : SafeText (txt "OAR_WORKDIR")), fun c hc => Or.inl ((hd d List.mem_cons_self).2 c hc), fun x hx => hd x (List.mem_cons_of_mem _ hx)⟩
    · rcases List.mem_append.1 he with he | he
      · exact hm _ (good2 u) e he
      · rcases List.mem_cons.1 he with rfl | he
        · exact ⟨(by decide : SafeText (txt "OAR_PROJECT_NAME")), fun c hc => Or.inl (hp c hc), fun x hx => by cases hx⟩
        · exact hm _ (good3 u) e he

end

/-! ### Who is connected, and what is reported -/

/-- **C111.** A command is given to the local shell only for a running job with a host, which is not a `noop` job, by its user or by `oar`; the command is then the one of `local_exact`, with the shell of
the user who connects. -/
theorem connected_iff (cf : Conf) (user : Option (List Char)) (shellOf : List Char → List Char) (status : List Char → Int) (stop : Nat) (job : Option Job) (t : List Char) :
    (connect cf user shellOf status stop job).text = some t ↔ ∃ j x xs, job = some j ∧ (user = some j.user ∨ user = some (txt "oar")) ∧ j.state = "Running" ∧ "noop" ∉ j.types ∧ j.hosts = x :: xs ∧
      t = command cf j (if "cosystem" ∈ j.types then cf.cosystem else if "deploy" ∈ j.types then cf.deploy else x) (shellOf (user.getD [])) := by
  unfold connect
  cases job with
  | none => simp
  | some j =>
    dsimp only
    by_cases h1 : (user = some j.user ∨ user = some (txt "oar")) ∧ j.state = "Running"
    · rw [if_pos h1]
      by_cases h2 : "noop" ∈ j.types
      · rw [if_pos h2]
        constructor
        · intro h; cases h
        · rintro ⟨k, x, xs, e, _, _, n, _⟩
          cases e
          exact absurd h2 n
      · rw [if_neg h2]
        cases hh : j.hosts with
        | nil =>
          have : host cf j = none := by unfold host; rw [hh]
          rw [this]
          constructor
          · intro h; cases h
          · rintro ⟨k, x, xs, e, _, _, _, e', _⟩
            cases e
            rw [hh] at e'; cases e'
        | cons x xs =>
          have : host cf j = some (if "cosystem" ∈ j.types then cf.cosystem else if "deploy" ∈ j.types then cf.deploy else x) := by unfold host; rw [hh]
          rw [this]
          dsimp only
          have hs : ∀ (b : Prop) [Decidable b] (r r' : Result), r.text = r'.text → (if b then r else r').text = r.text := by
            intro b _ r r' e
            by_cases hb : b
            · rw [if_pos hb]
            · rw [if_neg hb, e]
          constructor
          · intro h
            rw [hs] at h
            · exact ⟨j, x, xs, rfl, h1.1, h1.2, h2, hh, (Option.some.inj h).symm⟩
            · rfl
          · rintro ⟨k, y, ys, e, _, _, _, e', rfl⟩
            cases e
            rw [hh] at e'; cases e'
            rw [hs]
            rfl
    · rw [if_neg h1]
      constructor
      · intro h; cases h
      · rintro ⟨k, x, xs, e, a, b, _⟩
        cases e
        exact absurd ⟨a, b⟩ h1

/-- **C111.** A user who is not allowed to connect, or a job that is not running: exit 20, and nothing is done. -/
theorem refused_exact (cf : Conf) (user : Option (List Char)) (shellOf : List Char → List Char) (status : List Char → Int) (stop : Nat) (j : Job)
    (h : ¬ ((user = some j.user ∨ user = some (txt "oar")) ∧ j.state = "Running")) : connect cf user shellOf status stop (some j) = { exit := some 20 } := by
  unfold connect
  dsimp only
  rw [if_neg h]

/-- **C111, violated.** The connection to a running job without host (a job on resources that are not nodes) raises an exception, although the code means to use the host of the `cosystem` jobs. -/
theorem no_host_violated (cf : Conf) (shellOf : List Char → List Char) (status : List Char → Int) (stop : Nat) (j : Job) (hr : j.state = "Running") (hn : "noop" ∉ j.types) (hh : j.hosts = []) :
    connect cf (some j.user) shellOf status stop (some j) = {} := by
  unfold connect host
  dsimp only
  rw [if_pos ⟨Or.inl rfl, hr⟩, if_neg hn, hh]

/-- **C111, violated.** When the connection ends with any exit status between 0 and 255 - 2: the directory cannot be entered, 255: ssh has failed - the exit code is 0 and, for an interactive submission,
the job is ended. -/
theorem status_violated (cf : Conf) (user : Option (List Char)) (shellOf : List Char → List Char) (status : List Char → Int) (stop : Nat) (job : Option Job) (t : List Char)
    (ht : (connect cf user shellOf status stop job).text = some t) (h0 : 0 ≤ status t) (h1 : status t ≤ 255) :
    (connect cf user shellOf status stop job).exit = some 0 ∧ ((connect cf user shellOf status stop job).ended = true ↔ stop > 0) := by
  obtain ⟨j, x, xs, rfl, a, b, c, d, rfl⟩ := (connected_iff cf user shellOf status stop job t).1 ht
  have hv : status (command cf j (if "cosystem" ∈ j.types then cf.cosystem else if "deploy" ∈ j.types then cf.deploy else x) (shellOf (user.getD []))) / 256 = 0 := by omega
  unfold connect host
  dsimp only
  rw [if_pos ⟨a, b⟩, if_neg c, d]
  dsimp only
  rw [hv, if_neg (fun hh => hh rfl)]
  exact ⟨rfl, by simp⟩

/-- **C111.** When the connection is ended by a signal, the exit code is -1 and the job is not ended. -/
theorem signal_exact (cf : Conf) (user : Option (List Char)) (shellOf : List Char → List Char) (status : List Char → Int) (stop : Nat) (job : Option Job) (t : List Char)
    (ht : (connect cf user shellOf status stop job).text = some t) (h0 : -256 ≤ status t) (h1 : status t < 0) :
    (connect cf user shellOf status stop job).exit = some (-1) ∧ (connect cf user shellOf status stop job).ended = false := by
  obtain ⟨j, x, xs, rfl, a, b, c, d, rfl⟩ := (connected_iff cf user shellOf status stop job t).1 ht
  have hv : status (command cf j (if "cosystem" ∈ j.types then cf.cosystem else if "deploy" ∈ j.types then cf.deploy else x) (shellOf (user.getD []))) / 256 = -1 := by omega
  unfold connect host
  dsimp only
  rw [if_pos ⟨a, b⟩, if_neg c, d]
  dsimp only
  rw [hv, if_pos (by decide)]
  exact ⟨rfl, rfl⟩

/-- The environment variable `OAR_CPUSET` is sent exactly when it is set: for a job on nodes, with both options, the directory of the cpuset of the job. -/
theorem cpuset_exact (cf : Conf) (user : Option (List Char)) (shellOf : List Char → List Char) (status : List Char → Int) (stop : Nat) (j : Job) (t : List Char)
    (ht : (connect cf user shellOf status stop (some j)).text = some t) :
    (connect cf user shellOf status stop (some j)).cpuset =
      if cf.field ≠ [] ∧ cf.cpusetPath ≠ [] ∧ "cosystem" ∉ j.types ∧ "deploy" ∉ j.types then cf.cpusetPath ++ txt "/" ++ (j.user ++ txt "_" ++ str j.id) else [] := by
  obtain ⟨k, x, xs, e, a, b, c, d, rfl⟩ := (connected_iff cf user shellOf status stop (some j) t).1 ht
  cases e
  show _ = cpuset cf j
  have hs : ∀ (b : Prop) [Decidable b] (r r' : Result), r.cpuset = r'.cpuset → (if b then r else r').cpuset = r.cpuset := by
    intro b _ r r' e
    by_cases hb : b
    · rw [if_pos hb]
    · rw [if_neg hb, e]
  unfold connect host
  dsimp only
  rw [if_pos ⟨a, b⟩, if_neg c, d]
  dsimp only
  rw [hs]
  rfl

/-! ### The hypotheses hold -/

def exampleConf : Conf :=
  ⟨txt "/var/lib/oar", txt "oarsub_connections_", txt "127.0.0.1", txt "127.0.0.1", txt "cpuset", txt "/oar", txt "/usr/bin/ssh -p 6667", none⟩

def exampleJob : Job := ⟨42, txt "alice", "Running", [], [txt "node1"], none, 42, 1, txt "/home/alice", none, txt "default", 7200⟩

theorem example_usual : Usual exampleConf exampleJob [txt "/usr/bin/ssh", txt "-p", txt "6667"] (txt "node1") (txt "/bin/bash") where
  ssh_text := by decide
  ssh_some := by decide
  ssh_safe := by decide
  host := by decide
  dir := by decide
  pids := by decide
  user := by decide
  env := rfl
  name := by decide
  proxy := fun u h => by cases h
  shell := by decide

/-- The example with a directory of one word and a safe project, and with a project that removes a file. -/
theorem example_paths : exampleJob.directory = spaced [txt "/home/alice"] ∧ (∀ x ∈ [txt "/home/alice"], SafeWord x) ∧ SafeText exampleJob.project ∧
    (txt ";rm oar.conf;" = txt ";" ++ spaced [txt "rm", txt "oar.conf"] ++ txt ";" ∧ ∀ x ∈ [txt "rm", txt "oar.conf"], SafeWord x) := by decide

/-- The connection of the user of the example. -/
theorem example_connected : (connect exampleConf (some (txt "alice")) (fun _ => txt "/bin/bash") (fun _ => 2) 1 (some exampleJob)).text = some (command exampleConf exampleJob (txt "node1") (txt "/bin/bash")) ∧
    (connect exampleConf (some (txt "alice")) (fun _ => txt "/bin/bash") (fun _ => 2) 1 (some exampleJob)).exit = some 0 ∧
    (connect exampleConf (some (txt "bob")) (fun _ => txt "/bin/bash") (fun _ => 2) 1 (some exampleJob)).exit = some 20 := by
  refine ⟨?_, ?_, ?_⟩
  · exact (connected_iff _ _ _ _ _ _ _).2 ⟨exampleJob, txt "node1", [], rfl, Or.inl rfl, rfl, by decide, rfl, rfl⟩
  · exact (status_violated exampleConf (some (txt "alice")) (fun _ => txt "/bin/bash") (fun _ => 2) 1 (some exampleJob) _
      ((connected_iff _ _ _ _ _ _ _).2 ⟨exampleJob, txt "node1", [], rfl, Or.inl rfl, rfl, by decide, rfl, rfl⟩) (by decide) (by decide)).1
  · rw [refused_exact _ _ _ _ _ _ (by decide)]

end Oar.Connect
