import Verif.JobsStep

/-!
# C23 and C24: ended jobs, state log, authorisations
-/

namespace Oar.Jobs

/-! ## C23 -/

/-- `set_job_state` does nothing on a job that has ended, whatever the state asked for. -/
theorem setJobState_ended {db : DB} {jid : Nat} {j : JobRow} (hj : db.job? jid = some j) (he : Ended j.state) (now : Int)
    (st : String) : setJobState db now jid st = db := by
  rcases setJobState_cases db now jid st with e | ⟨i, hi, hal, _, _⟩
  · exact e
  · rw [hj] at hi
    rw [← Option.some.inj hi] at hal
    exact absurd he (not_done_alive hal)

example : setJobState ⟨[⟨1, "bob", "Terminated", "PASSIVE", "None", 5, 9, false, [], none, 0, 60, 0, 0⟩], [⟨1, "Terminated", 9, 0⟩], [], [], []⟩
    12 1 "Running" = ⟨[⟨1, "bob", "Terminated", "PASSIVE", "None", 5, 9, false, [], none, 0, 60, 0, 0⟩], [⟨1, "Terminated", 9, 0⟩], [], [], []⟩ := by
  decide

/-- A job in one of the ten live states asked to take another state takes it, and the new interval is opened in the log. -/
theorem setJobState_alive {db : DB} {jid : Nat} {j : JobRow} (hj : db.job? jid = some j) (hal : j.state ∈ aliveStates)
    (now : Int) (st : String) (hne : j.state ≠ st) :
    (∃ k ∈ (setJobState db now jid st).jobs, k.id = jid ∧ k.state = st) ∧
    (setJobState db now jid st).log = closeLog now jid db.log ++ [⟨jid, st, now, 0⟩] := by
  obtain ⟨hjm, hjid⟩ := job?_some hj
  unfold setJobState
  rw [hj]
  dsimp only
  rw [if_pos (by unfold mayBecome; simp; exact (List.mem_erase_of_ne hne).2 hal)]
  refine ⟨⟨withState st j, ?_, hjid, rfl⟩, rfl⟩
  have := updJob_mem (jid := jid) (f := withState st) hjm
  rw [if_pos hjid] at this
  exact this

/-- A change of state writes nothing else than the state of this job, except that a job that ends gets a stop date that is not
before its start date: the one it has if it is correct. -/
theorem setJobState_stop {db : DB} {jid : Nat} {j : JobRow} (hj : db.job? jid = some j) (hal : j.state ∈ aliveStates)
    (now : Int) (st : String) (hne : j.state ≠ st) :
    ∃ k ∈ (setJobState db now jid st).jobs, k = { j with state := st, stop := k.stop } ∧
      (Ended st → j.start ≤ k.stop) ∧ (¬ Ended st ∨ j.start ≤ j.stop → k.stop = j.stop) ∧
      (Ended st → j.stop < j.start → k.stop = j.start) := by
  obtain ⟨hjm, hjid⟩ := job?_some hj
  unfold setJobState
  rw [hj]
  dsimp only
  rw [if_pos (by unfold mayBecome; simp; exact (List.mem_erase_of_ne hne).2 hal)]
  have := updJob_mem (jid := jid) (f := withState st) hjm
  rw [if_pos hjid] at this
  refine ⟨_, this, rfl, ?_, ?_, ?_⟩ <;> unfold withState Ended <;> dsimp only
  · intro h
    by_cases hc : j.stop < j.start
    · rw [if_pos ⟨h, hc⟩]; omega
    · rw [if_neg (fun x => hc x.2)]; omega
  · intro h
    rw [if_neg (by
      rintro ⟨h1, h2⟩
      rcases h with h | h
      · exact h h1
      · omega)]
  · intro h hc
    rw [if_pos ⟨h, hc⟩]

/-- The rows of the other jobs are untouched. -/
theorem setJobState_others (db : DB) (now : Int) (jid : Nat) (st : String) :
    (setJobState db now jid st).jobs.filter (fun j => j.id ≠ jid) = db.jobs.filter (fun j => j.id ≠ jid) := by
  rcases setJobState_cases db now jid st with e | ⟨i, _, _, _, e⟩ <;> rw [e]
  show (db.jobs.map _).filter _ = _
  induction db.jobs with
  | nil => rfl
  | cons x xs ih =>
    rw [List.map_cons]
    by_cases hx : x.id = jid
    · rw [if_pos hx, List.filter_cons_of_neg (by simp [withState, hx]), List.filter_cons_of_neg (by simpa using hx), ih]
    · rw [if_neg hx, List.filter_cons_of_pos (by simpa using hx), List.filter_cons_of_pos (by simpa using hx), ih]

example : (setJobState ⟨[⟨1, "bob", "Launching", "PASSIVE", "None", 5, 0, false, [], none, 0, 60, 0, 0⟩], [], [], [], []⟩ 12 1 "Error").jobs =
    [⟨1, "bob", "Error", "PASSIVE", "None", 5, 5, false, [], none, 0, 60, 0, 0⟩] := by decide

/-- For every history, the intervals of the log of each job are consecutive and chronological, only the last one is open, and
it carries the current state of the job. -/
theorem log_timeline {t : Int} {db : DB} (h : History t db) : ∀ j ∈ db.jobs, Timeline j.state t (db.logOf j.id) := h.inv.log

/-- Each interval belongs to a known job. -/
theorem log_known {t : Int} {db : DB} (h : History t db) : ∀ r ∈ db.log, ∃ j ∈ db.jobs, j.id = r.jid := h.inv.known

theorem Timeline.open_last {cur : String} {t : Int} : ∀ {l : List LogRow}, Timeline cur t l →
    ∃ r, l.filter (fun r => r.stop == 0) = [r] ∧ l.getLast? = some r ∧ r.state = cur
  | [], h => h.elim
  | [r], ⟨h1, h2, _, _⟩ => ⟨r, by simp [h1], rfl, h2⟩
  | r :: r' :: rest, ⟨_, h2, h3, _, h5⟩ => by
    obtain ⟨x, hx, hl, hs⟩ := Timeline.open_last h5
    refine ⟨x, ?_, ?_, hs⟩
    · rw [List.filter_cons_of_neg (by simp; omega)]
      exact hx
    · rw [List.getLast?_cons_cons]; exact hl

/-- Exactly one interval of the log of a job is open. -/
theorem log_one_open {t : Int} {db : DB} (h : History t db) {j : JobRow} (hj : j ∈ db.jobs) :
    ∃ r, (db.logOf j.id).filter (fun r => r.stop == 0) = [r] ∧ (db.logOf j.id).getLast? = some r ∧ r.state = j.state :=
  (log_timeline h j hj).open_last

/-- The databases reached from `db` by further steps. -/
inductive Later (t : Int) (db : DB) : Int → DB → Prop
  | refl : Later t db t db
  | step (t' now : Int) (db' db'' : DB) (h : Later t db t' db') (hle : t' ≤ now) (hs : Step now db' db'') : Later t db now db''

theorem Later.history {t t' : Int} {db db' : DB} (hl : Later t db t' db') : History t db → History t' db' := by
  induction hl with
  | refl => exact id
  | step t' now db' db'' _ hle hs ih => exact fun h => .step _ _ _ _ (ih h) hle hs

/-- A job that has ended keeps its state for ever. -/
theorem ended_absorbing {t t' : Int} {db db' : DB} (h : History t db) (hl : Later t db t' db') {j : JobRow} (hj : j ∈ db.jobs)
    (he : Ended j.state) : ∃ j' ∈ db'.jobs, j'.id = j.id ∧ j'.state = j.state := by
  induction hl with
  | refl => exact ⟨j, hj, rfl, rfl⟩
  | step t' now db' db'' hl hle hs ih =>
    obtain ⟨k, hk, e1, e2⟩ := ih
    have hh := hl.history h
    have hpos : 0 < now := by have := hh.pos; omega
    have hi := hh.inv.mono hle
    obtain ⟨m, hm, f1, f2⟩ := (hs.micro hpos hi).keeps hpos hi k hk (e2 ▸ he)
    exact ⟨m, hm, by omega, f2.trans e2⟩

/-- No job disappears, and the identifiers are unique. -/
theorem ids_unique {t : Int} {db : DB} (h : History t db) : ∀ a ∈ db.jobs, ∀ b ∈ db.jobs, a.id = b.id → a = b :=
  inj_of_sorted h.inv.ids

/-- A submitted job. -/
def exJob : JobRow := ⟨1, "bob", "Waiting", "PASSIVE", "None", 0, 0, false, [], none, 7, 60, 0, 0⟩

/-- A history: submission, launch, end, treatment of the end event. -/
def exDb0 : DB := submit ⟨[], [], [], [], []⟩ 10 exJob
def exDb1 : DB := setJobState exDb0 12 1 "Running"
def exDb2 : DB := checkEnd exDb1 30 false [] 1 (some 0) 0
def exEnv : Env := ⟨31, fun _ => ["n1"], false, .done, false⟩

theorem exHistory : History 30 exDb2 := by
  have h0 : History 10 exDb0 :=
    .step 10 10 _ _ (.start 10 (by decide)) (by decide) (.submit _ exJob (by simp) rfl (by decide))
  have h1 : History 12 exDb1 := .step 10 12 _ _ h0 (by decide) (.setState _ 1 "Running" (by decide) (by
    intro j hj _ hf
    have : j = exJob := by simpa [exDb0, submit] using hj
    rw [this] at hf
    exact absurd hf (by decide)))
  exact .step 12 30 _ _ h1 (by decide) (.jobEnd _ false [] 1 (some 0) 0)

example : exDb2.log = [⟨1, "Waiting", 10, 12⟩, ⟨1, "Running", 12, 30⟩, ⟨1, "Finishing", 30, 0⟩] := by decide

/-- The history goes on until the job is Terminated. -/
example : ∃ db hs, ncsEvents exEnv exDb2 = some (db, hs) ∧ History 31 db ∧ (db.jobs.map JobRow.state) = ["Terminated"] := by
  have : ∃ v, ncsEvents exEnv exDb2 = some v ∧ (v.1.jobs.map JobRow.state) = ["Terminated"] := ⟨_, rfl, by decide⟩
  obtain ⟨⟨db, hs⟩, h1, h2⟩ := this
  exact ⟨db, hs, h1, .step 30 31 _ _ exHistory (by decide) (.events _ _ exEnv hs rfl h1), h2⟩

/-! ## C24 -/

/-- The users who may act on a job. -/
def MayAct (user : String) (j : JobRow) : Prop := user = j.user ∨ user = "oar" ∨ user = "root"

/-- What a deletion request adds to the database. -/
def withFragRequest (db : DB) (now : Int) (jid : Nat) : DB :=
  { db with frags := db.frags ++ [⟨jid, now, "LEON"⟩], events := db.events ++ [⟨"FRAG_JOB_REQUEST", jid, true, []⟩] }

/-- `frag_job`: the request is registered exactly when the job exists, the caller owns it or is an administrator, and it is
not being deleted already; otherwise the database does not change and the code is negative. There is no condition on the
state of the job. -/
theorem fragJob_spec (db : DB) (now : Int) (jid : Nat) (user : String) :
    ((∃ j, db.job? jid = some j ∧ MayAct user j) ∧ (∀ f ∈ db.frags, f.jid ≠ jid) ∧
      fragJob db now jid user = (0, withFragRequest db now jid)) ∨
    (¬ ((∃ j, db.job? jid = some j ∧ MayAct user j) ∧ (∀ f ∈ db.frags, f.jid ≠ jid)) ∧
      (fragJob db now jid user).1 < 0 ∧ (fragJob db now jid user).2 = db) := by
  unfold fragJob
  cases hj : db.job? jid with
  | none =>
    right
    refine ⟨?_, by simp, rfl⟩
    rintro ⟨⟨j, hj', _⟩, _⟩
    simp at hj'
  | some j =>
    dsimp only
    by_cases hu : user = j.user ∨ user = "oar" ∨ user = "root"
    · rw [if_pos hu]
      by_cases hf : db.frags.any (fun f => f.jid == jid) = true
      · rw [if_pos hf]
        right
        refine ⟨?_, by simp, rfl⟩
        rintro ⟨_, hn⟩
        obtain ⟨f, h1, h2⟩ := List.any_eq_true.1 hf
        exact hn f h1 (by simpa using h2)
      · rw [if_neg hf]
        left
        refine ⟨⟨j, rfl, hu⟩, ?_, rfl⟩
        intro f hfm e
        exact hf (List.any_eq_true.2 ⟨f, hfm, by simpa using e⟩)
    · rw [if_neg hu]
      right
      refine ⟨?_, by simp, rfl⟩
      rintro ⟨⟨k, hk, hm⟩, _⟩
      rw [← Option.some.inj hk] at hm
      exact hu hm

/-- The states in which a job can be held: a waiting or resuming one, and a job being executed when its suspension is asked
for. -/
def Holdable (running : Bool) (st : String) : Prop :=
  st = "Waiting" ∨ st = "Resuming" ∨ (running = true ∧ (st = "toLaunch" ∨ st = "Launching" ∨ st = "Running"))

/-- `hold_job`: the request is registered exactly when the job exists, the caller may act on it (for the suspension of a
running job, is an administrator or the option allows the users), and the state is eligible; otherwise nothing changes. -/
theorem holdJob_spec (db : DB) (allowed : Bool) (jid : Nat) (running : Bool) (user : String) :
    ((∃ j, db.job? jid = some j ∧ MayAct user j ∧ Holdable running j.state ∧
        (running = true → allowed = false → user = "oar" ∨ user = "root")) ∧
      holdJob db allowed jid running user =
        (0, { db with events := db.events ++ [⟨if running then "HOLD_RUNNING_JOB" else "HOLD_WAITING_JOB", jid, true, []⟩] })) ∨
    (¬ (∃ j, db.job? jid = some j ∧ MayAct user j ∧ Holdable running j.state ∧
        (running = true → allowed = false → user = "oar" ∨ user = "root")) ∧
      (holdJob db allowed jid running user).1 < 0 ∧ (holdJob db allowed jid running user).2 = db) := by
  unfold holdJob
  cases hj : db.job? jid with
  | none =>
    right
    refine ⟨?_, by simp, rfl⟩
    rintro ⟨j, hj', _⟩
    simp at hj'
  | some j =>
    dsimp only
    by_cases ha : running = true ∧ allowed = false ∧ user ≠ "oar" ∧ user ≠ "root"
    · rw [if_pos ha]
      right
      refine ⟨?_, by simp, rfl⟩
      rintro ⟨k, _, _, _, h4⟩
      rcases h4 ha.1 ha.2.1 with h | h
      · exact ha.2.2.1 h
      · exact ha.2.2.2 h
    rw [if_neg ha]
    by_cases hu : user = j.user ∨ user = "oar" ∨ user = "root"
    · rw [if_pos hu]
      by_cases hs : (j.state = "Waiting" ∨ j.state = "Resuming") ∨
          (running = true ∧ (j.state = "toLaunch" ∨ j.state = "Launching" ∨ j.state = "Running"))
      · rw [if_pos hs]
        left
        refine ⟨⟨j, rfl, hu, ?_, ?_⟩, rfl⟩
        · rcases hs with (h | h) | h
          · exact Or.inl h
          · exact Or.inr (Or.inl h)
          · exact Or.inr (Or.inr h)
        · intro h1 h2
          by_cases h3 : user = "oar"
          · exact Or.inl h3
          · by_cases h4 : user = "root"
            · exact Or.inr h4
            · exact absurd ⟨h1, h2, h3, h4⟩ ha
      · rw [if_neg hs]
        right
        refine ⟨?_, by simp, rfl⟩
        rintro ⟨k, hk, _, h3, _⟩
        rw [← Option.some.inj hk] at h3
        rcases h3 with h | h | h
        · exact hs (Or.inl (Or.inl h))
        · exact hs (Or.inl (Or.inr h))
        · exact hs (Or.inr h)
    · rw [if_neg hu]
      right
      refine ⟨?_, by simp, rfl⟩
      rintro ⟨k, hk, hm, _⟩
      rw [← Option.some.inj hk] at hm
      exact hu hm

/-- `resume_job`: the request is registered exactly when the job exists, the caller may act on it (for a suspended job, is an
administrator or the option allows the users), and the job is Hold or Suspended; otherwise nothing changes. -/
theorem resumeJob_spec (db : DB) (allowed : Bool) (jid : Nat) (user : String) :
    ((∃ j, db.job? jid = some j ∧ MayAct user j ∧ (j.state = "Hold" ∨ j.state = "Suspended") ∧
        (j.state = "Suspended" → allowed = false → user = "oar" ∨ user = "root")) ∧
      resumeJob db allowed jid user = (0, { db with events := db.events ++ [⟨"RESUME_JOB", jid, true, []⟩] })) ∨
    (¬ (∃ j, db.job? jid = some j ∧ MayAct user j ∧ (j.state = "Hold" ∨ j.state = "Suspended") ∧
        (j.state = "Suspended" → allowed = false → user = "oar" ∨ user = "root")) ∧
      (resumeJob db allowed jid user).1 < 0 ∧ (resumeJob db allowed jid user).2 = db) := by
  unfold resumeJob
  cases hj : db.job? jid with
  | none =>
    right
    refine ⟨?_, by simp, rfl⟩
    rintro ⟨j, hj', _⟩
    simp at hj'
  | some j =>
    dsimp only
    by_cases ha : j.state = "Suspended" ∧ allowed = false ∧ user ≠ "oar" ∧ user ≠ "root"
    · rw [if_pos ha]
      right
      refine ⟨?_, by simp, rfl⟩
      rintro ⟨k, hk, _, _, h4⟩
      rw [← Option.some.inj hk] at h4
      rcases h4 ha.1 ha.2.1 with h | h
      · exact ha.2.2.1 h
      · exact ha.2.2.2 h
    rw [if_neg ha]
    by_cases hu : user = j.user ∨ user = "oar" ∨ user = "root"
    · rw [if_pos hu]
      by_cases hs : j.state = "Hold" ∨ j.state = "Suspended"
      · rw [if_pos hs]
        left
        refine ⟨⟨j, rfl, hu, hs, ?_⟩, rfl⟩
        intro h1 h2
        by_cases h3 : user = "oar"
        · exact Or.inl h3
        · by_cases h4 : user = "root"
          · exact Or.inr h4
          · exact absurd ⟨h1, h2, h3, h4⟩ ha
      · rw [if_neg hs]
        right
        refine ⟨?_, by simp, rfl⟩
        rintro ⟨k, hk, _, h3, _⟩
        rw [← Option.some.inj hk] at h3
        exact hs h3
    · rw [if_neg hu]
      right
      refine ⟨?_, by simp, rfl⟩
      rintro ⟨k, hk, hm, _⟩
      rw [← Option.some.inj hk] at hm
      exact hu hm

/-- `ask_checkpoint_signal_job`: accepted exactly for a running, not interactive job by a user who may act on it, otherwise
nothing changes. -/
theorem askCheckpoint_spec (db : DB) (jid : Nat) (signal : Option String) (user : String) :
    ((∃ j, db.job? jid = some j ∧ MayAct user j ∧ j.state = "Running" ∧ j.jtype ≠ "INTERACTIVE") ∧
      (askCheckpoint db jid signal user).1 = 0 ∧
      ∃ ty, (askCheckpoint db jid signal user).2 = { db with events := db.events ++ [⟨ty, jid, true, []⟩] }) ∨
    (¬ (∃ j, db.job? jid = some j ∧ MayAct user j ∧ j.state = "Running" ∧ j.jtype ≠ "INTERACTIVE") ∧
      (askCheckpoint db jid signal user).1 > 0 ∧ (askCheckpoint db jid signal user).2 = db) := by
  unfold askCheckpoint
  cases hj : db.job? jid with
  | none =>
    right
    refine ⟨?_, by simp, rfl⟩
    rintro ⟨j, hj', _⟩
    simp at hj'
  | some j =>
    dsimp only
    have aux : ∀ {P : JobRow → Prop}, ¬ P j → ¬ ∃ k, some j = some k ∧ P k := by
      rintro P hn ⟨k, hk, hp⟩
      rw [← Option.some.inj hk] at hp
      exact hn hp
    by_cases hi : j.jtype = "INTERACTIVE"
    · rw [if_pos hi]
      exact Or.inr ⟨aux (fun h => h.2.2 hi), by simp, rfl⟩
    rw [if_neg hi]
    by_cases hu : user = j.user ∨ user = "oar" ∨ user = "root"
    · rw [if_pos hu]
      by_cases hs : j.state = "Running"
      · rw [if_pos hs]
        left
        refine ⟨⟨j, rfl, hu, hs, hi⟩, ?_⟩
        cases signal with
        | none => exact ⟨rfl, _, rfl⟩
        | some s => exact ⟨rfl, _, rfl⟩
      · rw [if_neg hs]
        exact Or.inr ⟨aux (fun h => hs h.2.1), by simp, rfl⟩
    · rw [if_neg hu]
      exact Or.inr ⟨aux (fun h => hu h.1), by simp, rfl⟩

/-- Bob's job can be deleted by Bob once; Alice cannot. -/
example : (fragJob exDb1 20 1 "bob").1 = 0 ∧ (fragJob (fragJob exDb1 20 1 "bob").2 21 1 "bob").1 = -2 ∧
    (fragJob exDb1 20 1 "alice") = (-1, exDb1) := by decide

example : (holdJob exDb0 false 1 false "bob").1 = 0 ∧ (holdJob exDb1 false 1 true "bob").1 = -4 ∧
    (holdJob exDb1 true 1 true "bob").1 = 0 ∧ (holdJob exDb1 true 1 true "alice").1 = -2 := by decide

/-- The event of a checkpoint request is not "CHECKPOINT" but the one of a signal, and conversely: the two are exchanged. -/
theorem checkpoint_event_violated :
    ((askCheckpoint exDb1 1 none "bob").2.events.map Event.type) = ["SIGNAL_None"] ∧
    ((askCheckpoint exDb1 1 (some "SIGUSR1") "bob").2.events.map Event.type) = ["CHECKPOINT"] := by decide

end Oar.Jobs
