import Verif.KeysSpec
import Verif.ScriptProps

/-!
# C86: the files of a submission are read with the rights of its user, and its jobs have the keys asked
-/

namespace Oar.Keys

open Oar.Tools Oar.Script Spec

/-! ## Keys -/

theorem takeWhile_line {b : List Char} (hb : '\n' ∉ b) (n : Nat) : (b ++ List.replicate n '\n').takeWhile (fun c => c != '\n') = b := by
  rw [List.takeWhile_append_of_pos (fun c hc => by
    rw [bne_iff_ne]; exact fun e => hb (e ▸ hc))]
  cases n with
  | zero => simp
  | succ n => simp [List.replicate_succ]

theorem dropWhile_line {b : List Char} (hb : '\n' ∉ b) (n : Nat) : (b ++ List.replicate n '\n').dropWhile (fun c => c != '\n') = List.replicate n '\n' := by
  rw [List.dropWhile_append_of_pos (fun c hc => by
    rw [bne_iff_ne]; exact fun e => hb (e ▸ hc))]
  cases n with
  | zero => simp
  | succ n => simp [List.replicate_succ]

theorem format_line {k pub : List Char} (h : OneLine k pub) : format pub = true ∧ pub.filter (fun c => c != '\n') = k ∧ pub ≠ [] := by
  obtain ⟨hn, ⟨t, s, b, ht, rfl, hs, hb⟩, n, rfl⟩ := h
  have hbn : '\n' ∉ b := fun hx => hn (by simp [hx])
  have hrest : formatRest (s :: (b ++ List.replicate n '\n')) = true := by
    unfold formatRest
    dsimp only
    rw [takeWhile_line hbn, dropWhile_line hbn, hs]
    simp [hb]
  refine ⟨?_, ?_, ?_⟩
  · unfold format
    rw [List.append_assoc, List.cons_append]
    rcases ht with rfl | rfl
    · rw [after_append]; exact hrest
    · rw [show after (txt "ssh-rsa") (txt "ssh-dss" ++ s :: (b ++ List.replicate n '\n')) = none from rfl, after_append]
      exact hrest
  · rw [List.filter_append, List.filter_eq_self.2 (fun c hc => by rw [bne_iff_ne]; exact fun e => hn (e ▸ hc))]
    simp
  · rcases ht with rfl | rfl <;> simp [txt]

theorem lastChecks_ok {priv pub k : List Char} (hp : priv ≠ []) (hk : OneLine k pub) : lastChecks priv pub = .ok priv k := by
  obtain ⟨h1, h2, h3⟩ := format_line hk
  unfold lastChecks
  rw [if_neg h3, if_neg hp, if_neg (by rw [h1]; simp), h2]

theorem runAs_own {e : Env} (hu : e.user ≠ "") : runAs { e with become := some e.user } = e.user := by
  show (if e.user = "" then "root" else e.user) = _
  rw [if_neg hu]

theorem file_eq (e : Env) (o : KeyOpts) (hu : o.use = true) : (if o.use && o.inl.isEmpty && o.file.isEmpty then e.keyFile else o.file) = keyFile e o := by
  unfold keyFile
  rw [hu]
  cases hi : o.inl <;> cases hf : o.file <;> simp

theorem keyFile_env (e : Env) (o : KeyOpts) (u : Option String) : keyFile { e with become := u } o = keyFile e o := rfl

/-- Exactly one source of keys is asked. -/
def OneSource (e : Env) (o : KeyOpts) : Prop := o.inl = [] ∨ keyFile e o = []

theorem jobKey_ok {w : World} {e : Env} {i : Nat} {o : KeyOpts} (hu : o.use = true) (hn : e.user ≠ "") (hs : OneSource e o) {priv pub k : List Char}
    (hp : pair w e i o = some (priv, pub)) (h0 : priv ≠ []) (hk : OneLine k pub) :
    ∃ acc e', jobKey w e i o = (.ok priv k, acc, e') ∧ e'.user = e.user ∧ e'.keyFile = e.keyFile ∧ (e'.become = e.become ∨ e'.become = some e.user) ∧
      (∀ a ∈ acc, a = .read e.user (keyFile e o)) := by
  unfold jobKey
  rw [file_eq e o hu, hu]
  simp only [Bool.not_true, Bool.false_eq_true, if_false]
  rw [if_neg (by
    rintro ⟨h1, h2⟩
    rcases hs with h | h
    · exact h1 h
    · exact h2 h)]
  unfold pair at hp
  by_cases hi : o.inl ≠ []
  · rw [if_pos hi] at hp ⊢
    cases hq : w.pubOf o.inl with
    | none => rw [hq] at hp; exact absurd hp (by simp)
    | some p =>
      rw [hq] at hp
      have : o.inl = priv ∧ p = pub := by simpa using hp
      obtain ⟨rfl, rfl⟩ := this
      refine ⟨[], e, ?_, rfl, rfl, Or.inl rfl, by simp⟩
      dsimp only
      rw [lastChecks_ok h0 hk]
  · rw [if_neg hi] at hp ⊢
    by_cases hf : keyFile e o ≠ []
    · rw [if_pos hf] at hp ⊢
      rw [runAs_own hn]
      cases hr : w.read e.user (keyFile e o) with
      | none => rw [hr] at hp; exact absurd hp (by simp)
      | some c =>
        rw [hr, Option.bind_some] at hp
        rw [show cat (some c) = c from rfl]
        cases hq : w.pubOf c with
        | none => rw [hq] at hp; exact absurd hp (by simp)
        | some p =>
          rw [hq] at hp
          have : c = priv ∧ p = pub := by simpa using hp
          obtain ⟨rfl, rfl⟩ := this
          refine ⟨[.read e.user (keyFile e o)], { e with become := some e.user }, ?_, rfl, rfl, Or.inr rfl, by simp⟩
          dsimp only
          rw [lastChecks_ok h0 hk]
    · rw [if_neg hf] at hp ⊢
      rw [hp]
      refine ⟨[], e, ?_, rfl, rfl, Or.inl rfl, by simp⟩
      dsimp only
      rw [lastChecks_ok h0 hk]

theorem pair_env (w : World) (e e' : Env) (i : Nat) (o : KeyOpts) (h1 : e'.user = e.user) (h2 : e'.keyFile = e.keyFile) :
    pair w e' i o = pair w e i o ∧ keyFile e' o = keyFile e o := by
  unfold pair keyFile
  rw [h1, h2]
  exact ⟨rfl, rfl⟩

theorem loop_exact {w : World} {o : KeyOpts} (hu : o.use = true) (hx : o.exp = []) (next : Nat) (keys : Nat → List Char × List Char) :
    ∀ (cs : List (List Char)) (i : Nat) (e : Env), e.user ≠ "" → OneSource e o →
      (∀ j, i ≤ j → j < i + cs.length → (keys j).1 ≠ [] ∧ ∃ pub, pair w e j o = some ((keys j).1, pub) ∧ OneLine (keys j).2 pub) →
      (loop w o next i e cs).jobs = jobsWith next keys i cs ∧ (loop w o next i e cs).code = some 0
  | [], i, e, _, _, _ => ⟨rfl, rfl⟩
  | c :: cs, i, e, hn, hs, h => by
    obtain ⟨h0, pub, hp, hk⟩ := h i (Nat.le_refl i) (by simp)
    obtain ⟨acc, e', hj, he1, he2, -, -⟩ := jobKey_ok hu hn hs hp h0 hk
    have ih := loop_exact hu hx next keys cs (i + 1) e' (by rw [he1]; exact hn) (by
        unfold OneSource
        rw [(pair_env w e e' 0 o he1 he2).2]; exact hs)
      (fun j h1 h2 => by
        have := h j (by omega) (by simp; omega)
        rw [(pair_env w e e' j o he1 he2).1]; exact this)
    rw [loop, hj]
    dsimp only
    rw [hx]
    simp only [List.isEmpty_nil, Bool.not_true, Bool.and_false, Bool.false_eq_true, if_false]
    rw [ih.1, ih.2, jobsWith]
    exact ⟨rfl, rfl⟩

/-- With `-k`, each job has the private key asked (given, read as the user of the submission, or generated) and its public key in one line. -/
theorem keys_exact {w : World} {e : Env} {o : KeyOpts} (hu : o.use = true) (hx : o.exp = []) (hn : e.user ≠ "") (hs : OneSource e o) (next : Nat)
    (keys : Nat → List Char × List Char) (cs : List (List Char))
    (h : ∀ j, j < cs.length → (keys j).1 ≠ [] ∧ ∃ pub, pair w e j o = some ((keys j).1, pub) ∧ OneLine (keys j).2 pub) :
    (addJobs w e o next cs).jobs = jobsWith next keys 0 cs ∧ (addJobs w e o next cs).code = some 0 := by
  unfold addJobs
  rw [if_neg (by rw [hu]; simp)]
  exact loop_exact hu hx next keys cs 0 e hn hs (fun j _ h2 => h j (by omega))

/-- Without `-k` no job has a key. -/
theorem no_keys {w : World} {e : Env} {o : KeyOpts} (hu : o.use = false) (next : Nat) (cs : List (List Char)) :
    ∀ j ∈ (addJobs w e o next cs).jobs, j.priv = [] ∧ j.pub = [] := by
  have hsimple : ∀ (cs : List (List Char)) (next : Nat), ∀ j ∈ simple next cs, j.priv = [] ∧ j.pub = [] := by
    intro cs
    induction cs with
    | nil => intro next j hj; exact absurd hj (by simp [simple])
    | cons c cs ih =>
      intro next j hj
      rw [simple] at hj
      rcases List.mem_cons.1 hj with rfl | hj
      · exact ⟨rfl, rfl⟩
      · exact ih _ j hj
  have hloop : ∀ (cs : List (List Char)) (i : Nat) (e : Env), ∀ j ∈ (loop w o next i e cs).jobs, j.priv = [] ∧ j.pub = [] := by
    intro cs
    induction cs with
    | nil => intro i e j hj; exact absurd hj (by simp [loop])
    | cons c cs ih =>
      intro i e j hj
      rw [loop] at hj
      unfold jobKey at hj
      rw [hu] at hj
      simp only [Bool.false_and, Bool.false_eq_true, if_false, Bool.not_false, if_true] at hj
      split at hj
      · exact absurd hj (by simp)
      · rename_i heq
        have h1 := congrArg Prod.fst heq
        dsimp only at h1
        split at h1
        · exact absurd h1 (by simp)
        · injection h1 with h1 h2
          rcases List.mem_cons.1 hj with rfl | hj
          · exact ⟨h1.symm, h2.symm⟩
          · exact ih _ _ j hj
  unfold addJobs
  split
  · exact hsimple cs next
  · exact hloop cs 0 e

/-! ## Refusals -/

/-- The options about keys without `-k` are refused for a job. -/
theorem options_refused {w : World} {e : Env} {o : KeyOpts} (hu : o.use = false) (h : o.inl ≠ [] ∨ o.file ≠ [] ∨ o.exp ≠ []) (next : Nat) (c : List Char) :
    addJobs w e o next [c] = ⟨[], [], some (-15)⟩ := by
  unfold addJobs
  rw [if_neg (by simp), loop]
  unfold jobKey
  rw [hu]
  simp only [Bool.false_and, Bool.false_eq_true, if_false, Bool.not_false, if_true]
  rw [if_pos h]

/-- For an array they are silently ignored. -/
theorem options_array_violated {w : World} {e : Env} {o : KeyOpts} (hu : o.use = false) (next : Nat) (cs : List (List Char)) (h : 1 < cs.length) :
    (addJobs w e o next cs).jobs.map Job.command = cs ∧ (addJobs w e o next cs).code = some 0 := by
  have hsimple : ∀ (cs : List (List Char)) (next : Nat), (simple next cs).map Job.command = cs := by
    intro cs
    induction cs with
    | nil => intro next; rfl
    | cons c cs ih => intro next; rw [simple, List.map_cons, ih]
  unfold addJobs
  rw [if_pos ⟨h, hu⟩]
  exact ⟨hsimple cs next, rfl⟩

/-- A key given twice is refused. -/
theorem both_refused {w : World} {e : Env} {o : KeyOpts} (hu : o.use = true) (hi : o.inl ≠ []) (hf : o.file ≠ []) (next : Nat) (c : List Char)
    (cs : List (List Char)) : addJobs w e o next (c :: cs) = ⟨[], [], some (-15)⟩ := by
  have hk : keyFile e o = o.file := by unfold keyFile; rw [if_neg (by simp [hi])]
  unfold addJobs
  rw [if_neg (by rw [hu]; simp), loop]
  unfold jobKey
  rw [file_eq e o hu, hk, hu]
  simp only [Bool.not_true, Bool.false_eq_true, if_false]
  rw [if_pos ⟨hi, hf⟩]

/-- A file of key that its user cannot read is refused: nothing is submitted. -/
theorem unreadable_refused {w : World} {e : Env} {o : KeyOpts} (hu : o.use = true) (hn : e.user ≠ "") (hi : o.inl = []) (hf : keyFile e o ≠ [])
    (hr : w.read e.user (keyFile e o) = none) (hw : w.pubOf [] = none) (next : Nat) (c : List Char) (cs : List (List Char)) :
    (addJobs w e o next (c :: cs)).jobs = [] ∧ (addJobs w e o next (c :: cs)).code = some (-14) := by
  unfold addJobs
  rw [if_neg (by rw [hu]; simp), loop]
  unfold jobKey
  rw [file_eq e o hu, hu]
  simp only [Bool.not_true, Bool.false_eq_true, if_false]
  rw [if_neg (by simp [hi]), if_neg (by simp [hi]), if_pos hf, runAs_own hn, hr, show cat none = [] from rfl, hw]
  exact ⟨rfl, rfl⟩

/-! ## Rights -/

theorem jobKey_accesses (w : World) (e : Env) (i : Nat) (o : KeyOpts) (hn : e.user ≠ "") :
    (∀ a ∈ (jobKey w e i o).2.1, ∃ f, a = .read e.user f) ∧ (jobKey w e i o).2.2.user = e.user ∧
    ((jobKey w e i o).2.2.become = e.become ∨ (jobKey w e i o).2.2.become = some e.user) := by
  unfold jobKey
  dsimp only
  generalize hg : (if (o.use && o.inl.isEmpty && o.file.isEmpty) = true then e.keyFile else o.file) = file
  split
  · exact ⟨by simp, rfl, Or.inl rfl⟩
  · split
    · exact ⟨by simp, rfl, Or.inl rfl⟩
    · split
      · exact ⟨by simp, rfl, Or.inl rfl⟩
      · split
        · refine ⟨fun a ha => ⟨file, ?_⟩, rfl, Or.inr rfl⟩
          have := List.mem_singleton.1 ha
          rw [this, runAs_own hn]
        · exact ⟨by simp, rfl, Or.inl rfl⟩

theorem loop_reads (w : World) (o : KeyOpts) (next : Nat) : ∀ (cs : List (List Char)) (i : Nat) (e : Env), e.user ≠ "" →
    ∀ u f, .read u f ∈ (loop w o next i e cs).accesses → u = e.user
  | [], i, e, _, u, f, h => absurd h (by simp [loop])
  | c :: cs, i, e, hn, u, f, h => by
    have hj := jobKey_accesses w e i o hn
    rw [loop] at h
    generalize hk : jobKey w e i o = k at h hj
    obtain ⟨r, acc, e'⟩ := k
    dsimp only at hj
    have hacc : ∀ u f, Access.read u f ∈ acc → u = e.user := fun u f hm => by
      obtain ⟨g, hg⟩ := hj.1 _ hm
      injection hg
    have ih : ∀ u f, .read u f ∈ (loop w o next (i + 1) e' cs).accesses → u = e.user := fun u f hm => by
      rw [← hj.2.1]; exact loop_reads w o next cs (i + 1) e' (by rw [hj.2.1]; exact hn) u f hm
    cases r with
    | error code => exact hacc u f h
    | ok priv pub =>
      dsimp only at h
      split at h
      · split at h
        · exact hacc u f h
        · dsimp only at h
          rcases List.mem_append.1 h with h | h
          · exact hacc u f h
          · rcases List.mem_cons.1 h with h | h
            · exact absurd h (by simp)
            · exact ih u f h
      · dsimp only at h
        rcases List.mem_append.1 h with h | h
        · exact hacc u f h
        · exact ih u f h

/-- The files of keys are read with the rights of the user of the submission, whatever the environment. -/
theorem key_reads_own (w : World) (e : Env) (o : KeyOpts) (next : Nat) (cs : List (List Char)) (hn : e.user ≠ "") (u : String) (f : List Char)
    (h : .read u f ∈ (addJobs w e o next cs).accesses) : u = e.user := by
  unfold addJobs at h
  split at h
  · exact absurd h (by simp)
  · exact loop_reads w o next cs 0 e hn u f h

theorem loop_own (w : World) (o : KeyOpts) (next : Nat) : ∀ (cs : List (List Char)) (i : Nat) (e : Env), e.user ≠ "" → e.become = some e.user →
    ∀ a ∈ (loop w o next i e cs).accesses, a.user = e.user
  | [], i, e, _, _, a, h => absurd h (by simp [loop])
  | c :: cs, i, e, hn, hb, a, h => by
    have hj := jobKey_accesses w e i o hn
    rw [loop] at h
    generalize hk : jobKey w e i o = k at h hj
    obtain ⟨r, acc, e'⟩ := k
    dsimp only at hj
    have hb' : e'.become = some e'.user := by
      rw [hj.2.1]
      rcases hj.2.2 with h | h
      · rw [h, hb]
      · exact h
    have hacc : ∀ a ∈ acc, a.user = e.user := fun a hm => by
      obtain ⟨g, hg⟩ := hj.1 _ hm
      rw [hg]; rfl
    have ih : ∀ a ∈ (loop w o next (i + 1) e' cs).accesses, a.user = e.user := fun a hm => by
      rw [← hj.2.1]; exact loop_own w o next cs (i + 1) e' (by rw [hj.2.1]; exact hn) hb' a hm
    cases r with
    | error code => exact hacc a h
    | ok priv pub =>
      dsimp only at h
      split at h
      · split at h
        · exact hacc a h
        · dsimp only at h
          rcases List.mem_append.1 h with h | h
          · exact hacc a h
          · rcases List.mem_cons.1 h with h | h
            · rw [h]
              show runAs e' = _
              unfold runAs
              rw [hb']
              dsimp only
              rw [if_neg (by rw [hj.2.1]; exact hn), hj.2.1]
            · exact ih a h
      · dsimp only at h
        rcases List.mem_append.1 h with h | h
        · exact hacc a h
        · exact ih a h

/-- When the script is scanned, or when the environment already tells to become the user, all the files of the submission are read and written with the
rights of its user. -/
theorem own_rights (w : World) (e : Env) (next : Nat) (r : Req) (hn : e.user ≠ "") (h : r.script ≠ [] ∨ e.become = some e.user) :
    ∀ a ∈ (submit w e next r).accesses, a.user = e.user := by
  have hb : (scanEnv e r).become = some e.user ∧ (scanEnv e r).user = e.user := by
    unfold scanEnv
    split
    · rename_i h0
      rcases h with h | h
      · exact absurd h0 h
      · exact ⟨h, rfl⟩
    · exact ⟨rfl, rfl⟩
  have hr : runAs (scanEnv e r) = e.user := by
    unfold runAs
    rw [hb.1]
    dsimp only
    rw [if_neg hn]
  intro a ha
  have ha' : a ∈ firstAccesses e r ++ (addJobs w (scanEnv e r) r.keys next (commandsOf w e r)).accesses := ha
  rcases List.mem_append.1 ha' with ha | ha
  · unfold firstAccesses at ha
    rw [hr] at ha
    rcases List.mem_append.1 ha with ha | ha
    · split at ha
      · exact absurd ha (by simp)
      · rw [List.mem_singleton.1 ha]; rfl
    · split at ha
      · exact absurd ha (by simp)
      · rw [List.mem_singleton.1 ha]; rfl
  · unfold addJobs at ha
    split at ha
    · exact absurd ha (by simp)
    · rw [← hb.2]
      exact loop_own w r.keys next _ 0 (scanEnv e r) (by rw [hb.2]; exact hn) (by rw [hb.1, hb.2]) a ha

theorem loop_same {w w' : World} {u : String} (hr : w.read u = w'.read u) (hp : w.pubOf = w'.pubOf) (hg : w.gen = w'.gen) (hn : u ≠ "") (o : KeyOpts) (next : Nat) :
    ∀ (cs : List (List Char)) (i : Nat) (e : Env), e.user = u → loop w o next i e cs = loop w' o next i e cs
  | [], i, e, _ => rfl
  | c :: cs, i, e, hu => by
    have hj : jobKey w e i o = jobKey w' e i o := by
      unfold jobKey
      rw [runAs_own (by rw [hu]; exact hn), hu, hr, hp, hg]
    have hm : (jobKey w' e i o).2.2.user = u := by rw [(jobKey_accesses w' e i o (by rw [hu]; exact hn)).2.1, hu]
    rw [loop, loop, hj]
    generalize jobKey w' e i o = k at hm
    obtain ⟨r, acc, e'⟩ := k
    dsimp only at hm
    have ih := loop_same hr hp hg hn o next cs (i + 1) e' hm
    cases r with
    | error code => rfl
    | ok priv pub =>
      dsimp only
      rw [ih]

/-- In these cases the jobs and their keys only depend on the files that the user can read. -/
theorem own_contents (w w' : World) (e : Env) (next : Nat) (r : Req) (hn : e.user ≠ "") (h : r.script ≠ [] ∨ e.become = some e.user)
    (hr : w.read e.user = w'.read e.user) (hp : w.pubOf = w'.pubOf) (hg : w.gen = w'.gen) : submit w e next r = submit w' e next r := by
  have hb : (scanEnv e r).become = some e.user ∧ (scanEnv e r).user = e.user := by
    unfold scanEnv
    split
    · rename_i h0
      rcases h with h | h
      · exact absurd h0 h
      · exact ⟨h, rfl⟩
    · exact ⟨rfl, rfl⟩
  have hra : runAs (scanEnv e r) = e.user := by
    unfold runAs
    rw [hb.1]
    dsimp only
    rw [if_neg hn]
  have hc : commandsOf w e r = commandsOf w' e r := by
    unfold commandsOf
    rw [hra, hr]
  have ha : ∀ cs, addJobs w (scanEnv e r) r.keys next cs = addJobs w' (scanEnv e r) r.keys next cs := by
    intro cs
    unfold addJobs
    rw [loop_same hr hp hg hn r.keys next cs 0 (scanEnv e r) hb.2]
  unfold submit
  rw [hc, ha]

/-- The file of parameters of an array is read as root: the lines of a file that the user cannot read become the commands of jobs, that everybody can list. -/
theorem param_root_violated (w : World) (e : Env) (next : Nat) (command file content : List Char) (hb : e.become = none) (hf : file ≠ [])
    (hroot : w.read "root" file = some content) (h2 : 1 < (paramLines content).length) :
    (submit w e next { command := command, paramFile := file }).accesses = [.read "root" file] ∧
    (submit w e next { command := command, paramFile := file }).jobs.map Job.command = (paramLines content).map (fun x => command ++ ' ' :: x) ∧
    (submit w e next { command := command, paramFile := file }).code = some 0 := by
  have hs : scanEnv e { command := command, paramFile := file } = e := rfl
  have hr : runAs e = "root" := by unfold runAs; rw [hb]
  have hc : commandsOf w e { command := command, paramFile := file } = (paramLines content).map (fun x => command ++ ' ' :: x) := by
    unfold commandsOf
    rw [if_neg hf, hs, hr]
    show (paramLines (cat (w.read "root" file))).map _ = _
    rw [hroot]; rfl
  have hv := options_array_violated (w := w) (e := e) (o := {}) rfl next ((paramLines content).map (fun x => command ++ ' ' :: x)) (by rw [List.length_map]; exact h2)
  unfold submit
  rw [hc, hs]
  refine ⟨?_, hv.1, hv.2⟩
  have ha : (addJobs w e {} next ((paramLines content).map (fun x => command ++ ' ' :: x))).accesses = [] := by
    unfold addJobs
    rw [if_pos ⟨by rw [List.length_map]; exact h2, rfl⟩]
  show firstAccesses e _ ++ (addJobs w e {} next _).accesses = _
  rw [ha]
  unfold firstAccesses
  rw [hs, hr, if_neg hf]
  rfl

/-- The wrapper keeps the variable of the caller: the file can be read as any other user. -/
theorem param_any_violated (w : World) (e : Env) (next : Nat) (command file : List Char) (victim : String) (hv : victim ≠ "") (hb : e.become = some victim)
    (hf : file ≠ []) : .read victim file ∈ (submit w e next { command := command, paramFile := file }).accesses := by
  have hs : scanEnv e { command := command, paramFile := file } = e := rfl
  have hr : runAs e = victim := by
    unfold runAs
    rw [hb]
    dsimp only
    rw [if_neg hv]
  refine List.mem_append_left _ ?_
  unfold firstAccesses
  rw [hs, hr, if_neg hf]
  exact List.mem_append_right _ (by simp)

/-! ## Exports -/

theorem loop_one {w : World} {e e' : Env} {o : KeyOpts} {next : Nat} {c priv pub : List Char} {acc : List Access} (hu : o.use = true) (hx : o.exp ≠ [])
    (hj : jobKey w e 0 o = (.ok priv pub, acc, e')) :
    (e'.become = none → addJobs w e o next [c] = ⟨[⟨next, c, priv, pub⟩], acc, none⟩) ∧
    (∀ u, e'.become = some u → addJobs w e o next [c] =
      ⟨[⟨next, c, priv, pub⟩], acc ++ [.truncate (runAs e') (substId (digits next) o.exp.length o.exp)], some 0⟩) := by
  have he : (o.use && !o.exp.isEmpty) = true := by
    rw [hu]
    cases hy : o.exp with
    | nil => exact absurd hy hx
    | cons => rfl
  unfold addJobs
  rw [if_neg (by simp), loop, hj]
  dsimp only
  rw [if_pos he]
  constructor
  · intro h; rw [h]; rfl
  · intro u h; rw [h]; rfl

/-- The export of a generated key: without the variable in the environment an exception stops the command after the job is created; with it the file is emptied and the
command succeeds. The key is never written. -/
theorem export_violated {w : World} {e : Env} {exp priv pub k : List Char} (hx : exp ≠ []) (hkf : e.keyFile = [])
    (hg : w.gen 0 = some (priv, pub)) (h0 : priv ≠ []) (hk : OneLine k pub) (next : Nat) (c : List Char) :
    (e.become = none → addJobs w e { use := true, exp := exp } next [c] = ⟨[⟨next, c, priv, k⟩], [], none⟩) ∧
    (∀ u, e.become = some u → addJobs w e { use := true, exp := exp } next [c] =
      ⟨[⟨next, c, priv, k⟩], [.truncate (runAs e) (substId (digits next) exp.length exp)], some 0⟩) := by
  have hkfile : keyFile e { use := true, exp := exp } = [] := by unfold keyFile; rw [if_pos ⟨rfl, rfl⟩, hkf]
  have hj : jobKey w e 0 { use := true, exp := exp } = (.ok priv k, [], e) := by
    unfold jobKey
    rw [file_eq e { use := true, exp := exp } rfl, hkfile, hg]
    dsimp only
    rw [lastChecks_ok h0 hk]
    simp
  have h := loop_one (next := next) (c := c) (o := { use := true, exp := exp }) rfl hx hj
  exact ⟨h.1, fun u hu => h.2 u hu⟩

/-- An array with keys is not created as a whole: when the generation of a key fails, the jobs before it are created. -/
theorem atomic_violated {w : World} {e : Env} {priv pub k : List Char} (hkf : e.keyFile = []) (hg : w.gen 0 = some (priv, pub)) (h0 : priv ≠ [])
    (hk : OneLine k pub) (hf : w.gen 1 = none) (next : Nat) (c c' : List Char) :
    addJobs w e { use := true } next [c, c'] = ⟨[⟨next, c, priv, k⟩], [], some (-14)⟩ := by
  have hkfile : keyFile e { use := true } = [] := by unfold keyFile; rw [if_pos ⟨rfl, rfl⟩, hkf]
  have hj : ∀ i, jobKey w e i { use := true } = (match w.gen i with | none => .error (-14) | some p => lastChecks p.1 p.2, [], e) := by
    intro i
    unfold jobKey
    rw [file_eq e { use := true } rfl, hkfile]
    rfl
  unfold addJobs
  rw [if_neg (by simp), loop, hj 0, hg]
  dsimp only
  rw [lastChecks_ok h0 hk]
  dsimp only
  rw [loop, hj 1, hf]
  rfl

/-- `OAR_JOB_KEY_FILE` in the environment does not imply the use of a key, against the comment of the code. -/
theorem implied_violated (f : String) : useKey false none none (some f) = false := rfl

/-! ## A concrete case -/

/-- The keys of bob; root can read everything. -/
def world : World :=
  { read := fun u f => if f = txt "/etc/shadow" then (if u = "root" then some (txt "root:x\nbob:y\n") else none)
      else if f = txt "/home/bob/key" then (if u = "bob" ∨ u = "root" then some (txt "PRIV") else none) else none,
    pubOf := fun k => if k = txt "PRIV" then some (txt "ssh-rsa AAA\n") else none,
    gen := fun i => some (txt "P" ++ digits i, txt "ssh-rsa B" ++ digits i ++ ['\n']) }

example : submit world ⟨"bob", none, []⟩ 7 { command := txt "prog", paramFile := txt "/etc/shadow" } =
    ⟨[⟨7, txt "prog root:x", [], []⟩, ⟨8, txt "prog bob:y", [], []⟩], [.read "root" (txt "/etc/shadow")], some 0⟩ := by rfl

example : addJobs world ⟨"bob", none, []⟩ { use := true, file := txt "/home/bob/key" } 7 [txt "a", txt "b"] =
    ⟨[⟨7, txt "a", txt "PRIV", txt "ssh-rsa AAA"⟩, ⟨8, txt "b", txt "PRIV", txt "ssh-rsa AAA"⟩],
     [.read "bob" (txt "/home/bob/key"), .read "bob" (txt "/home/bob/key")], some 0⟩ := by rfl

example : OneLine (txt "ssh-rsa AAA") (txt "ssh-rsa AAA\n") :=
  ⟨by decide, ⟨txt "ssh-rsa", ' ', txt "AAA", Or.inl rfl, rfl, by decide, by decide⟩, 1, rfl⟩

example : substId (digits 42) 20 (txt "key-%jobid%.k") = txt "key-42.k" := by decide +kernel

end Oar.Keys
