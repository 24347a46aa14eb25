import Verif.JobsFragProps

/-!
# C34, C35 and C54: resubmissions and treatment of the events
-/

namespace Oar.Jobs

/-! ## The state of one job along the treatment of an event -/

/-- The state of job `i`. -/
def DB.stateOf (db : DB) (i : Nat) : Option String := (db.job? i).map JobRow.state

theorem job?_updJob_same {db : DB} {i : Nat} (f : JobRow → JobRow) (hf : ∀ j, (f j).id = j.id) :
    (db.updJob i f).job? i = (db.job? i).map f := by
  unfold DB.job? DB.updJob
  dsimp only
  induction db.jobs with
  | nil => rfl
  | cons a l ih =>
    rw [List.map_cons, List.find?_cons, List.find?_cons, ih]
    by_cases h : a.id = i
    · rw [if_pos h, hf]
      have : (a.id == i) = true := by simpa using h
      rw [this]
      rfl
    · rw [if_neg h]
      have : (a.id == i) = false := by simpa using h
      rw [this]

/-- The state after a change requested for the job. -/
def become (st s : String) : String := if s ∈ aliveStates then st else s

theorem stateOf_setJobState (db : DB) (now : Int) (i : Nat) (st : String) :
    (setJobState db now i st).stateOf i = (db.stateOf i).map (become st) := by
  unfold DB.stateOf
  rcases setJobState_cases db now i st with e | ⟨j, hj, hal, hne, e⟩
  · rw [e]
    cases hj : db.job? i with
    | none => rfl
    | some j =>
      simp only [Option.map_some, Option.some.injEq]
      unfold become
      split
      · rename_i hal
        by_cases hs : j.state = st
        · exact hs
        · exfalso
          have := (setJobState_alive hj hal now st hs).2
          rw [e] at this
          have := congrArg List.length this
          simp [closeLog] at this
      · rfl
  · rw [e]
    show Option.map _ ((db.updJob i (withState st)).job? i) = _
    rw [job?_updJob_same _ (withState_id st), hj]
    simp [withState, become, hal]

theorem stateOf_setJobState_other (db : DB) (now : Int) {x i : Nat} (h : x ≠ i) (st : String) :
    (setJobState db now x st).stateOf i = db.stateOf i := by
  unfold DB.stateOf
  rw [job?_setJobState_other h]

theorem job?_append {db : DB} {i : Nat} {j k : JobRow} (h : db.job? i = some j) :
    ({ db with jobs := db.jobs ++ [k] } : DB).job? i = some j := by
  unfold DB.job? at h ⊢
  rw [List.find?_append, h]
  rfl

/-! ## The resubmission -/

/-- `resubmit_job` succeeds exactly for a passive job that is finishing or has ended, requested by its owner or an
administrator, whose ssh keys are not used by an active job. Then a waiting copy with a fresh id is appended, and all the jobs
that depended on the old one depend on the new one; otherwise nothing changes. -/
theorem resubmitJob_spec (db : DB) (now : Int) (kc : Bool) (user : String) (jid : Nat) :
    (∃ j, db.job? jid = some j ∧ j.jtype = "PASSIVE" ∧ Done j.state ∧ MayAct user j ∧ kc = false ∧
      (resubmitJob db now kc user jid).1 = 0 ∧
      (resubmitJob db now kc user jid).2.1.jobs = db.jobs ++ [newJobRow j (nextId db)] ∧
      (resubmitJob db now kc user jid).2.1.log = db.log ++ [⟨nextId db, "Waiting", now, 0⟩] ∧
      (resubmitJob db now kc user jid).2.1.events = db.events ∧
      (resubmitJob db now kc user jid).2.1.deps =
        db.deps.map (fun d => if d.required = jid then ⟨d.job, nextId db⟩ else d)) ∨
    ((¬ ∃ j, db.job? jid = some j ∧ j.jtype = "PASSIVE" ∧ Done j.state ∧ MayAct user j ∧ kc = false) ∧
      (resubmitJob db now kc user jid).1 < 0 ∧ (resubmitJob db now kc user jid).2.1 = db) := by
  unfold resubmitJob
  cases hj : db.job? jid with
  | none => exact Or.inr ⟨by simp, by simp, rfl⟩
  | some j =>
    have aux : ∀ {P : JobRow → Prop}, ¬ P j → ¬ ∃ k, some j = some k ∧ P k := by
      rintro P hn ⟨k, hk, hp⟩
      rw [← Option.some.inj hk] at hp
      exact hn hp
    dsimp only
    by_cases h1 : j.jtype ≠ "PASSIVE"
    · rw [if_pos h1]
      exact Or.inr ⟨aux (fun h => h1 h.1), by simp, rfl⟩
    rw [if_neg h1]
    by_cases h2 : j.state ≠ "Error" ∧ j.state ≠ "Terminated" ∧ j.state ≠ "Finishing"
    · rw [if_pos h2]
      refine Or.inr ⟨aux (fun h => ?_), by simp, rfl⟩
      rcases h.2.1 with h | h | h
      · exact h2.2.2 h
      · exact h2.2.1 h
      · exact h2.1 h
    rw [if_neg h2]
    by_cases h3 : user ≠ j.user ∧ user ≠ "oar" ∧ user ≠ "root"
    · rw [if_pos h3]
      refine Or.inr ⟨aux (fun h => ?_), by simp, rfl⟩
      rcases h.2.2.1 with h | h | h
      · exact h3.1 h
      · exact h3.2.1 h
      · exact h3.2.2 h
    rw [if_neg h3]
    cases kc with
    | true => exact Or.inr ⟨aux (fun h => by simp at h), by simp, rfl⟩
    | false =>
      left
      refine ⟨j, rfl, by simpa using h1, ?_, ?_, rfl, rfl, rfl, rfl, rfl, rfl⟩
      · unfold Done Ended
        by_cases g1 : j.state = "Finishing"
        · exact Or.inl g1
        · by_cases g2 : j.state = "Terminated"
          · exact Or.inr (Or.inl g2)
          · by_cases g3 : j.state = "Error"
            · exact Or.inr (Or.inr g3)
            · exact absurd ⟨g3, g2, g1⟩ h2
      · unfold MayAct
        by_cases g1 : user = j.user
        · exact Or.inl g1
        · by_cases g2 : user = "oar"
          · exact Or.inr (Or.inl g2)
          · by_cases g3 : user = "root"
            · exact Or.inr (Or.inr g3)
            · exact absurd ⟨g1, g2, g3⟩ h3

/-- After a successful resubmission no job depends on the old one any more. -/
theorem resubmit_redirects {db : DB} {now : Int} {kc : Bool} {user : String} {jid : Nat} (hne : jid ≠ nextId db)
    (h : (resubmitJob db now kc user jid).1 = 0) : ∀ d ∈ (resubmitJob db now kc user jid).2.1.deps, d.required ≠ jid := by
  rcases resubmitJob_spec db now kc user jid with ⟨j, _, _, _, _, _, _, _, _, _, e⟩ | ⟨_, e, _⟩
  · rw [e]
    intro d hd
    obtain ⟨d', _, rfl⟩ := List.mem_map.1 hd
    split
    · exact fun h => hne h.symm
    · assumption
  · omega

/-- In every history, at most one job is the automatic resubmission of a given job. -/
theorem resubmitted_once {t : Int} {db : DB} (h : History t db) : ∀ a ∈ db.jobs, ∀ b ∈ db.jobs, a.resubmit ≠ 0 →
    a.resubmit = b.resubmit → a = b :=
  fun a ha b hb h0 e => inj_of_sorted h.inv.ids a ha b hb (h.inv.uniq a ha b hb h0 e)

theorem job?_resubmit {db : DB} {now : Int} {kc : Bool} {user : String} {jid i : Nat} {j : JobRow} (h : db.job? i = some j) :
    (resubmitJob db now kc user jid).2.1.job? i = some j := by
  rcases resubmitJob_spec db now kc user jid with ⟨k, _, _, _, _, _, _, e, _⟩ | ⟨_, _, e⟩
  · unfold DB.job? at h ⊢
    rw [e, List.find?_append, h]
    rfl
  · rw [e]; exact h

/-! ## The state of the job after an event -/

/-- The state into which an event sends its job, if any (specification). -/
inductive Sends : String → JobRow → String → Prop
  | terminate (j : JobRow) : Sends "SWITCH_INTO_TERMINATE_STATE" j "Terminated"
  | epilogue (j : JobRow) : Sends "EPILOGUE_ERROR" j "Terminated"
  | clean (j : JobRow) : Sends "CPUSET_CLEAN_ERROR" j "Terminated"
  | error (j : JobRow) : Sends "SWITCH_INTO_ERROR_STATE" j "Error"
  | force (j : JobRow) : Sends "FORCE_TERMINATE_FINISHING_JOB" j "Error"
  | server (ty : String) (j : JobRow) (h : ty ∈ stopTypes) : Sends ty j "Error"
  | job (ty : String) (j : JobRow) (h : ty ∈ ["PROLOGUE_ERROR", "CANNOT_WRITE_NODE_FILE", "CANNOT_WRITE_PID_FILE", "USER_SHELL",
      "EXTERMINATE_JOB", "CANNOT_CREATE_TMP_DIRECTORY", "LAUNCHING_OAREXEC_TIMEOUT", "RESERVATION_NO_NODE", "BAD_HASHTABLE_DUMP",
      "SSH_TRANSFER_TIMEOUT", "EXIT_VALUE_OAREXEC"]) : Sends ty j "Error"
  | ping (j : JobRow) (h : j.reservation = "None" ∨ j.assigned = 0) : Sends "PING_CHECKER_NODE_SUSPECTED" j "Error"
  | cpuset (j : JobRow) (h : j.reservation = "None" ∨ j.assigned = 0) : Sends "CPUSET_ERROR" j "Error"

theorem stateOf_ncs1 {env : Env} {db : DB} {ev : Event} {j k : JobRow} {i : Nat} (h : db.job? i = some k) :
    (ncs1 env db ev j).job? i = some k := by
  unfold ncs1
  split
  · exact job?_resubmit h
  · exact h

/-- The state asked for by the second and third parts. -/
def target (ty : String) (j : JobRow) : Option String :=
  if ty = "SWITCH_INTO_TERMINATE_STATE" ∨ ty = "CPUSET_CLEAN_ERROR" ∨ ty = "EPILOGUE_ERROR" then some "Terminated"
  else if ty = "SWITCH_INTO_ERROR_STATE" ∨ ty = "FORCE_TERMINATE_FINISHING_JOB" ∨ ty ∈ stopTypes then some "Error"
  else if ty ∈ errorTypes ∧ (j.reservation = "None" ∨ ty = "RESERVATION_NO_NODE" ∨ j.assigned = 0 ∨
      (ty ≠ "PING_CHECKER_NODE_SUSPECTED" ∧ ty ≠ "CPUSET_ERROR")) then some "Error"
  else none

theorem sends_target {ty : String} {j : JobRow} {st : String} (h : Sends ty j st) : target ty j = some st := by
  unfold target
  cases h with
  | terminate => rw [if_pos (by simp)]
  | epilogue => rw [if_pos (by simp)]
  | clean => rw [if_pos (by simp)]
  | error => rw [if_neg (by decide), if_pos (by simp)]
  | force => rw [if_neg (by decide), if_pos (by simp)]
  | server _ _ h =>
    rw [if_neg, if_pos (Or.inr (Or.inr h))]
    revert h
    unfold stopTypes
    simp only [List.mem_cons, List.not_mem_nil, or_false]
    rintro (h | h | h | h) <;> rw [h] <;> decide
  | job _ _ h =>
    simp only [List.mem_cons, List.not_mem_nil, or_false] at h
    rw [if_neg, if_neg, if_pos]
    · rcases h with h | h | h | h | h | h | h | h | h | h | h <;> rw [h] <;>
        exact ⟨by decide, Or.inr (Or.inr (Or.inr ⟨by decide, by decide⟩))⟩
    · rcases h with h | h | h | h | h | h | h | h | h | h | h <;> rw [h] <;> decide
    · rcases h with h | h | h | h | h | h | h | h | h | h | h <;> rw [h] <;> decide
  | ping _ h =>
    rw [if_neg (by decide), if_neg (by decide), if_pos]
    refine ⟨by decide, ?_⟩
    rcases h with h | h
    · exact Or.inl h
    · exact Or.inr (Or.inr (Or.inl h))
  | cpuset _ h =>
    rw [if_neg (by decide), if_neg (by decide), if_pos]
    refine ⟨by decide, ?_⟩
    rcases h with h | h
    · exact Or.inl h
    · exact Or.inr (Or.inr (Or.inl h))

theorem target_sends {ty : String} {j : JobRow} {st : String} (h : target ty j = some st) : Sends ty j st := by
  unfold target at h
  split at h
  · rename_i hc
    rw [← Option.some.inj h]
    rcases hc with hc | hc | hc <;> rw [hc]
    · exact .terminate j
    · exact .clean j
    · exact .epilogue j
  split at h
  · rename_i hc
    rw [← Option.some.inj h]
    rcases hc with hc | hc | hc
    · rw [hc]; exact .error j
    · rw [hc]; exact .force j
    · exact .server ty j hc
  split at h
  · rename_i hc
    rw [← Option.some.inj h]
    obtain ⟨h1, h2⟩ := hc
    by_cases e1 : ty = "PING_CHECKER_NODE_SUSPECTED"
    · subst e1
      refine .ping j ?_
      rcases h2 with h2 | h2 | h2 | h2
      · exact Or.inl h2
      · exact absurd h2 (by decide)
      · exact Or.inr h2
      · exact absurd rfl h2.1
    · by_cases e2 : ty = "CPUSET_ERROR"
      · subst e2
        refine .cpuset j ?_
        rcases h2 with h2 | h2 | h2 | h2
        · exact Or.inl h2
        · exact absurd h2 (by decide)
        · exact Or.inr h2
        · exact absurd rfl h2.2
      · refine .job ty j ?_
        unfold errorTypes at h1
        simp only [List.mem_cons, List.not_mem_nil, or_false] at h1 ⊢
        rcases h1 with h | h | h | h | h | h | h | h | h | h | h | h | h
        · exact absurd h e1
        · exact absurd h e2
        all_goals (rw [h]; decide)
  · exact absurd h (by simp)

/-- The change of state of the parts 2 and 3. -/
def apply (o : Option String) (s : String) : String :=
  match o with
  | some st => become st s
  | none => s

theorem stateOf_ite {c : Prop} [Decidable c] {a b : DB} {i : Nat} :
    (if c then a else b).stateOf i = if c then a.stateOf i else b.stateOf i := by split <;> rfl

theorem ncs2_state (env : Env) (db : DB) (ev : Event) (j : JobRow) :
    (ncs2 env db ev j).stateOf j.id =
      if ev.type ∈ stopTypes then db.stateOf j.id else (db.stateOf j.id).map (apply (target ev.type j)) := by
  unfold ncs2
  dsimp only
  have key : ∀ (c1 c2 c3 c4 c5 : Prop) [Decidable c1] [Decidable c2] [Decidable c3] [Decidable c4] [Decidable c5]
      (t : Option String), (c5 → ¬ c1 ∧ ¬ c2 ∧ ¬ c3 ∧ ¬ c4) → (c1 → ¬ c3 ∧ ¬ c4) → (c2 → ¬ c3 ∧ ¬ c4) → (c3 → ¬ c4) →
      (c1 ∨ c4 → t = some "Terminated") → (¬ c1 → ¬ c4 → c2 ∨ c3 → t = some "Error") →
      (¬ c1 → ¬ c2 → ¬ c3 → ¬ c4 → ¬ c5 → t = none) →
      (if c4 then setJobState (if c3 then setJobState (if c1 then setJobState db env.now j.id "Terminated" else
          if c2 then setJobState db env.now j.id "Error" else db) env.now j.id "Error" else
          (if c1 then setJobState db env.now j.id "Terminated" else
          if c2 then setJobState db env.now j.id "Error" else db)) env.now j.id "Terminated" else
        (if c3 then setJobState (if c1 then setJobState db env.now j.id "Terminated" else
          if c2 then setJobState db env.now j.id "Error" else db) env.now j.id "Error" else
          (if c1 then setJobState db env.now j.id "Terminated" else
          if c2 then setJobState db env.now j.id "Error" else db))).stateOf j.id =
      if c5 then db.stateOf j.id else (db.stateOf j.id).map (apply t) := by
    intro c1 c2 c3 c4 c5 _ _ _ _ _ t x5 x1 x2 x3 y1 y2 y3
    by_cases h5 : c5
    · obtain ⟨n1, n2, n3, n4⟩ := x5 h5
      rw [if_pos h5, if_neg n4, if_neg n3, if_neg n1, if_neg n2]
    rw [if_neg h5]
    by_cases h1 : c1
    · obtain ⟨n3, n4⟩ := x1 h1
      rw [if_neg n4, if_neg n3, if_pos h1, y1 (Or.inl h1), stateOf_setJobState]
      rfl
    by_cases h4 : c4
    · have n2 : ¬ c2 := fun h => (x2 h).2 h4
      have n3 : ¬ c3 := fun h => x3 h h4
      rw [if_pos h4, if_neg n3, if_neg h1, if_neg n2, y1 (Or.inr h4), stateOf_setJobState]
      rfl
    by_cases h2 : c2
    · rw [if_neg h4, if_neg (x2 h2).1, if_neg h1, if_pos h2, y2 h1 h4 (Or.inl h2), stateOf_setJobState]
      rfl
    by_cases h3 : c3
    · rw [if_neg h4, if_pos h3, if_neg h1, if_neg h2, y2 h1 h4 (Or.inr h3), stateOf_setJobState]
      rfl
    rw [if_neg h4, if_neg h3, if_neg h1, if_neg h2, y3 h1 h2 h3 h4 h5]
    have : apply none = id := by funext s; rfl
    rw [this, Option.map_id]
    rfl
  refine key _ _ _ _ _ (target ev.type j) ?_ ?_ ?_ ?_ ?_ ?_ ?_
  · intro h5
    unfold stopTypes at h5
    simp only [List.mem_cons, List.not_mem_nil, or_false] at h5
    rcases h5 with h | h | h | h <;> rw [h] <;>
      exact ⟨by decide, by decide, fun h => absurd h.1 (by decide), by decide⟩
  · intro h
    rw [h]
    exact ⟨fun h => absurd h.1 (by decide), by decide⟩
  · intro h
    rcases h with h | h <;> rw [h] <;> exact ⟨fun h => absurd h.1 (by decide), by decide⟩
  · rintro ⟨h, _⟩ (h' | h') <;> (rw [h'] at h; revert h; decide)
  · intro h
    unfold target
    rw [if_pos h]
  · intro h1 h4 h
    unfold target
    rw [if_neg (fun h => h.elim h1 h4)]
    rcases h with h | h
    · rw [if_pos]
      rcases h with h | h
      · exact Or.inl h
      · exact Or.inr (Or.inl h)
    · split
      · rfl
      · rfl
  · intro h1 h2 h3 h4 h5
    unfold target
    rw [if_neg (fun h => h.elim h1 h4), if_neg (by
        rintro (h | h | h)
        · exact h2 (Or.inl h)
        · exact h2 (Or.inr h)
        · exact h5 h), if_neg h3]

theorem ncs3_state (env : Env) (db : DB) (ev : Event) (j : JobRow) (hj : ∃ k, db.job? j.id = some k) :
    (ncs3 env db ev j).stateOf j.id =
      if ev.type ∈ stopTypes then (db.stateOf j.id).map (become "Error") else db.stateOf j.id := by
  unfold ncs3
  dsimp only
  have h1 : (if ev.type ∈ stopTypes then setJobState db env.now j.id "Error" else db).stateOf j.id =
      if ev.type ∈ stopTypes then (db.stateOf j.id).map (become "Error") else db.stateOf j.id := by
    split
    · exact stateOf_setJobState _ _ _ _
    · rfl
  rw [← h1]
  have hk : ∃ k, (if ev.type ∈ stopTypes then setJobState db env.now j.id "Error" else db).job? j.id = some k := by
    obtain ⟨k, hk⟩ := hj
    have : (if ev.type ∈ stopTypes then setJobState db env.now j.id "Error" else db).stateOf j.id ≠ none := by
      rw [h1]
      unfold DB.stateOf
      rw [hk]
      split <;> simp
    unfold DB.stateOf at this
    cases h : (if ev.type ∈ stopTypes then setJobState db env.now j.id "Error" else db).job? j.id with
    | none => rw [h] at this; exact absurd rfl this
    | some k => exact ⟨k, rfl⟩
  generalize (if ev.type ∈ stopTypes then setJobState db env.now j.id "Error" else db) = d at hk
  obtain ⟨k, hk⟩ := hk
  split
  · unfold DB.stateOf
    rw [show (addEvent (resubmitJob d env.now env.keyClash "oar" j.id).2.1 "RESUBMIT_JOB_AUTOMATICALLY" j.id).job? j.id =
      (resubmitJob d env.now env.keyClash "oar" j.id).2.1.job? j.id from rfl, job?_resubmit hk, hk]
  · rfl

/-- The hold and resume requests, in words: what the request does to a job in each state. -/
def IsHold (ty : String) : Prop := ty = "HOLD_WAITING_JOB" ∨ ty = "HOLD_RUNNING_JOB" ∨ ty = "RESUME_JOB"

/-- Every event other than a hold or resume request: after its treatment the job is in the state into which the event sends it
if it had not ended; the state is unchanged when it had ended or when the event sends to no state. -/
theorem event_state {env : Env} {db db' : DB} {ev : Event} {j : JobRow} {hs : List (String × Bool)}
    (hj : db.job? ev.jid = some j) (hh : ¬ IsHold ev.type) (h : ncsEvent env db ev = some (db', hs)) :
    (∀ st, Sends ev.type j st → db'.stateOf ev.jid = some (if j.state ∈ aliveStates then st else j.state)) ∧
    ((∀ st, ¬ Sends ev.type j st) → db'.stateOf ev.jid = some j.state) := by
  have hid := (job?_some hj).2
  have main : db'.stateOf ev.jid = some (apply (target ev.type j) j.state) := by
    unfold ncsEvent at h
    rw [hj] at h
    dsimp only at h
    cases hsu : suspectHosts env ev j with
    | none => rw [hsu] at h; exact absurd h (by simp)
    | some v =>
      obtain ⟨hosts, finaud, logged⟩ := v
      rw [hsu] at h
      dsimp only at h
      unfold ncs4 at h
      have hh' : ¬ (ev.type = "HOLD_WAITING_JOB" ∨ ev.type = "HOLD_RUNNING_JOB" ∨ ev.type = "RESUME_JOB") := hh
      rw [if_neg hh'] at h
      dsimp only at h
      rw [← (Prod.mk.inj (Option.some.inj h)).1, ← hid]
      have h1 : (ncs1 env db ev j).job? j.id = some j := by
        apply stateOf_ncs1
        rw [hid]; exact hj
      have h2 := ncs2_state env (ncs1 env db ev j) ev j
      have h2' : (ncs1 env db ev j).stateOf j.id = some j.state := by unfold DB.stateOf; rw [h1]; rfl
      rw [h2'] at h2
      generalize ncs2 env (ncs1 env db ev j) ev j = d2 at h2
      have hl : (if logged = true then addEventHosts d2 "LOG_SUSPECTED" 0 hosts else d2).stateOf j.id = d2.stateOf j.id := by
        split <;> rfl
      generalize (if logged = true then addEventHosts d2 "LOG_SUSPECTED" 0 hosts else d2) = d3 at hl
      show (ncs3 env d3 ev j).stateOf j.id = _
      have hex : ∃ k, d3.job? j.id = some k := by
        have : d3.stateOf j.id ≠ none := by rw [hl, h2]; split <;> simp
        unfold DB.stateOf at this
        cases h : d3.job? j.id with
        | none => rw [h] at this; exact absurd rfl this
        | some k => exact ⟨k, rfl⟩
      rw [ncs3_state env d3 ev j hex, hl, h2]
      by_cases h5 : ev.type ∈ stopTypes
      · rw [if_pos h5, if_pos h5, sends_target (.server ev.type j h5)]
        rfl
      · rw [if_neg h5, if_neg h5]
        rfl
  constructor
  · intro st hs'
    rw [main, sends_target hs']
    rfl
  · intro hn
    rw [main]
    cases ht : target ev.type j with
    | none => rfl
    | some st => exact absurd (target_sends ht) (hn st)

/-- The hold and resume requests: a waiting job is held, a resuming one suspended again; a suspended one resumes, a held one
waits again. A running job is suspended by the request "hold" for waiting jobs, and not by the one for running jobs: the two
are exchanged in the code. In all the other cases the job keeps its state. No node is suspected. -/
theorem hold_event {env : Env} {db db' : DB} {ev : Event} {j : JobRow} {hs : List (String × Bool)}
    (hj : db.job? ev.jid = some j) (hh : IsHold ev.type) (h : ncsEvent env db ev = some (db', hs)) :
    hs = [] ∧
    (ev.type ≠ "RESUME_JOB" → j.state = "Waiting" → db'.stateOf ev.jid = some "Hold") ∧
    (ev.type ≠ "RESUME_JOB" → j.state = "Resuming" → db'.stateOf ev.jid = some "Suspended") ∧
    (ev.type = "RESUME_JOB" → j.state = "Suspended" → db'.stateOf ev.jid = some "Resuming") ∧
    (ev.type = "RESUME_JOB" → j.state = "Hold" → db'.stateOf ev.jid = some "Waiting") ∧
    (ev.type = "HOLD_WAITING_JOB" → j.state = "Running" → env.suspend = .done → db'.stateOf ev.jid = some "Suspended") ∧
    (ev.type = "HOLD_RUNNING_JOB" → j.state = "Running" → db'.stateOf ev.jid = some "Running") ∧
    (ev.type = "RESUME_JOB" → j.state ≠ "Suspended" → j.state ≠ "Hold" → db'.stateOf ev.jid = some j.state) ∧
    (ev.type ≠ "RESUME_JOB" → j.state ≠ "Waiting" → j.state ≠ "Resuming" → j.state ≠ "Running" →
      db'.stateOf ev.jid = some j.state) := by
  have hid := (job?_some hj).2
  obtain ⟨p1, p2, p3⟩ := ncs_hold_pre env db ev j hh
  unfold ncsEvent at h
  rw [hj] at h
  dsimp only at h
  rw [p2] at h
  dsimp only at h
  rw [if_neg (by decide), p3, p1] at h
  have hst : db.stateOf ev.jid = some j.state := by unfold DB.stateOf; rw [hj]; rfl
  cases h4 : ncs4 env db ev j with
  | none => rw [h4] at h; exact absurd h (by simp)
  | some d =>
    rw [h4] at h
    dsimp only at h
    obtain ⟨e1, e2⟩ := Prod.mk.inj (Option.some.inj h)
    have hs0 : hs = [] := by rw [← e2]; simp
    have hdb : db'.stateOf ev.jid = d.stateOf ev.jid := by rw [← e1]; rfl
    rw [hdb]
    have hset : ∀ (s st : String), j.state = s → s ∈ aliveStates →
        (setJobState db env.now j.id st).stateOf ev.jid = some st := by
      intro s st hs hal
      rw [hid, stateOf_setJobState, hst, hs]
      simp [become, hal]
    unfold ncs4 at h4
    have hh' : ev.type = "HOLD_WAITING_JOB" ∨ ev.type = "HOLD_RUNNING_JOB" ∨ ev.type = "RESUME_JOB" := hh
    rw [if_pos hh'] at h4
    refine ⟨hs0, ?_, ?_, ?_, ?_, ?_, ?_, ?_, ?_⟩
    · intro t s
      rw [if_pos ⟨t, s⟩] at h4
      rw [← Option.some.inj h4]
      exact hset _ _ s (by decide)
    · intro t s
      rw [if_neg (by rw [s]; exact fun h => absurd h.2 (by decide)), if_pos ⟨t, s⟩] at h4
      rw [← Option.some.inj h4]
      exact hset _ _ s (by decide)
    · intro t s
      rw [if_neg (fun h => h.1 t), if_neg (fun h => h.1 t), if_neg (by rw [t]; exact fun h => absurd h.1 (by decide)),
        if_pos ⟨t, s⟩] at h4
      rw [← Option.some.inj h4]
      exact hset _ _ s (by decide)
    · intro t s
      rw [if_neg (fun h => h.1 t), if_neg (fun h => h.1 t), if_neg (by rw [t]; exact fun h => absurd h.1 (by decide)),
        if_neg (by rw [s]; exact fun h => absurd h.2 (by decide)), if_pos ⟨t, s⟩] at h4
      rw [← Option.some.inj h4]
      exact hset _ _ s (by decide)
    · intro t s hd
      rw [if_neg (by rw [s]; exact fun h => absurd h.2 (by decide)), if_neg (by rw [s]; exact fun h => absurd h.2 (by decide)),
        if_pos ⟨t, s⟩] at h4
      split at h4
      · exact absurd h4 (by simp)
      · rw [← Option.some.inj h4]
        unfold suspendJob
        rw [hd]
        show (suspendAction db env.now j.id).stateOf ev.jid = _
        have := hset _ "Suspended" s (by decide)
        unfold DB.stateOf at this ⊢
        unfold suspendAction
        rw [hid] at this ⊢
        rw [job?_updJob_same (fun j : JobRow => { j with suspended := true }) (fun _ => rfl)]
        cases hx : (setJobState db env.now ev.jid "Suspended").job? ev.jid with
        | none => rw [hx] at this; exact absurd this (by simp)
        | some k => rw [hx] at this; exact this
    · intro t s
      have r1 : ev.type ≠ "RESUME_JOB" := by rw [t]; decide
      rw [if_neg (by rw [s]; exact fun h => absurd h.2 (by decide)), if_neg (by rw [s]; exact fun h => absurd h.2 (by decide)),
        if_neg (by rw [t]; exact fun h => absurd h.1 (by decide)), if_neg (fun h => r1 h.1), if_neg (fun h => r1 h.1)] at h4
      rw [← Option.some.inj h4, hst, s]
    · intro t s1 s2
      rw [if_neg (fun h => h.1 t), if_neg (fun h => h.1 t), if_neg (by rw [t]; exact fun h => absurd h.1 (by decide)),
        if_neg (fun h => s1 h.2), if_neg (fun h => s2 h.2)] at h4
      rw [← Option.some.inj h4, hst]
    · intro t s1 s2 s3
      rw [if_neg (fun h => s1 h.2), if_neg (fun h => s2 h.2), if_neg (fun h => s3 h.2), if_neg (fun h => t h.1),
        if_neg (fun h => t h.1)] at h4
      rw [← Option.some.inj h4, hst]

/-- The request to suspend a running job does not suspend it. -/
theorem hold_running_violated {env : Env} {db db' : DB} {ev : Event} {j : JobRow} {hs : List (String × Bool)}
    (hj : db.job? ev.jid = some j) (ht : ev.type = "HOLD_RUNNING_JOB") (hr : j.state = "Running")
    (h : ncsEvent env db ev = some (db', hs)) : db'.stateOf ev.jid = some "Running" :=
  (hold_event hj (Or.inr (Or.inl ht)) h).2.2.2.2.2.2.1 ht hr

/-- The database after the request of an administrator to suspend a running job, and its treatment. -/
example : ∃ v, ncsEvents exEnv (holdJob exDb1 false 1 true "root").2 = some v ∧ v.1.stateOf 1 = some "Running" :=
  ⟨_, rfl, by decide⟩

example : ∃ v, ncsEvents exEnv (addEvent exDb1 "HOLD_WAITING_JOB" 1) = some v ∧ v.1.stateOf 1 = some "Suspended" :=
  ⟨_, rfl, by decide⟩

/-! ## The other jobs and the new jobs -/

/-- The rows of the other jobs are unchanged. -/
def Others (i : Nat) (db db' : DB) : Prop := ∀ k ∈ db.jobs, k.id ≠ i → k ∈ db'.jobs

theorem Others.trans {i : Nat} {a b c : DB} (h1 : Others i a b) (h2 : Others i b c) : Others i a c :=
  fun k hk hi => h2 k (h1 k hk hi) hi

theorem Others.same {i : Nat} {db db' : DB} (h : db'.jobs = db.jobs) : Others i db db' := fun k hk _ => by rw [h]; exact hk

theorem others_updJob {db : DB} {i : Nat} (f : JobRow → JobRow) : Others i db (db.updJob i f) := by
  intro k hk hi
  have := updJob_mem (jid := i) (f := f) hk
  rw [if_neg hi] at this
  exact this

theorem others_setJobState (db : DB) (now : Int) (i : Nat) (st : String) : Others i db (setJobState db now i st) := by
  rcases setJobState_cases db now i st with e | ⟨_, _, _, _, e⟩
  · rw [e]; exact .same rfl
  · rw [e]; exact others_updJob (withState st)

theorem others_resubmit (db : DB) (now : Int) (kc : Bool) (user : String) (i : Nat) :
    Others i db (resubmitJob db now kc user i).2.1 := by
  rcases resubmitJob_spec db now kc user i with ⟨_, _, _, _, _, _, _, e, _⟩ | ⟨_, _, e⟩
  · intro k hk _
    rw [e]
    exact List.mem_append_left _ hk
  · rw [e]; exact .same rfl

theorem others_ite {i : Nat} {c : Prop} [Decidable c] {a db : DB} (h : Others i db a) : Others i db (if c then a else db) := by
  split
  · exact h
  · exact .same rfl

theorem others_ncs2 (env : Env) (db : DB) (ev : Event) (j : JobRow) : Others j.id db (ncs2 env db ev j) := by
  unfold ncs2
  dsimp only
  refine .trans (.trans ?_ (others_ite (others_setJobState _ _ _ _))) (others_ite (others_setJobState _ _ _ _))
  split
  · exact others_setJobState _ _ _ _
  · exact others_ite (others_setJobState _ _ _ _)

theorem others_ncs1 (env : Env) (db : DB) (ev : Event) (j : JobRow) : Others j.id db (ncs1 env db ev j) := by
  unfold ncs1
  exact others_ite (others_resubmit _ _ _ _ _)

theorem others_ncs3 (env : Env) (db : DB) (ev : Event) (j : JobRow) : Others j.id db (ncs3 env db ev j) := by
  unfold ncs3
  dsimp only
  refine .trans (others_ite (others_setJobState _ _ _ _)) (others_ite ?_)
  exact others_resubmit _ _ _ _ _

theorem others_ncs4 {env : Env} {db db' : DB} {ev : Event} {j : JobRow} (h : ncs4 env db ev j = some db') :
    Others j.id db db' := by
  have hact : ∀ d : DB, Others j.id d (suspendAction d env.now j.id) := fun d =>
    .trans (others_setJobState d env.now j.id "Suspended") (others_updJob _)
  unfold ncs4 at h
  split at h
  · split at h
    · rw [← Option.some.inj h]; exact others_setJobState _ _ _ _
    split at h
    · rw [← Option.some.inj h]; exact others_setJobState _ _ _ _
    split at h
    · split at h
      · exact absurd h (by simp)
      · rw [← Option.some.inj h]
        unfold suspendJob
        split
        · exact .same rfl
        · exact .same rfl
        · exact .same rfl
        · exact hact db
        · exact .trans (.trans (hact db) (.same (db' := addEvent (suspendAction db env.now j.id) "SUSPEND_SCRIPT_ERROR" j.id) rfl))
            (others_setJobState _ _ _ _)
        · exact .same (fragJob_jobs _ _ _ _).1
    split at h
    · rw [← Option.some.inj h]; exact others_setJobState _ _ _ _
    split at h
    · rw [← Option.some.inj h]; exact others_setJobState _ _ _ _
    · rw [← Option.some.inj h]; exact .same rfl
  · rw [← Option.some.inj h]; exact .same rfl

/-- The treatment of an event does not change any other job. -/
theorem event_others {env : Env} {db db' : DB} {ev : Event} {hs : List (String × Bool)}
    (h : ncsEvent env db ev = some (db', hs)) : ∀ k ∈ db.jobs, k.id ≠ ev.jid → k ∈ db'.jobs := by
  unfold ncsEvent at h
  cases hj : db.job? ev.jid with
  | none =>
    rw [hj] at h
    dsimp only at h
    split at h
    · exact absurd h (by simp)
    · rw [← (Prod.mk.inj (Option.some.inj h)).1]
      exact fun k hk _ => hk
  | some j =>
    rw [hj] at h
    dsimp only at h
    have hid := (job?_some hj).2
    cases hsu : suspectHosts env ev j with
    | none => rw [hsu] at h; exact absurd h (by simp)
    | some v =>
      obtain ⟨hosts, finaud, logged⟩ := v
      rw [hsu] at h
      dsimp only at h
      cases h4 : ncs4 env (ncs3 env (if logged = true then addEventHosts (ncs2 env (ncs1 env db ev j) ev j) "LOG_SUSPECTED" 0 hosts
          else ncs2 env (ncs1 env db ev j) ev j) ev j) ev j with
      | none => rw [h4] at h; exact absurd h (by simp)
      | some d4 =>
        rw [h4] at h
        dsimp only at h
        rw [← (Prod.mk.inj (Option.some.inj h)).1]
        show Others ev.jid db d4
        rw [← hid]
        refine .trans (.trans (.trans (.trans (others_ncs1 env db ev j) (others_ncs2 env _ ev j)) ?_) (others_ncs3 env _ ev j))
          (others_ncs4 h4)
        split
        · exact .same rfl
        · exact .same rfl

/-- The pairs (job, job of which it is the resubmission). -/
def DB.lineage (db : DB) : List (Nat × Nat) := db.jobs.map (fun k => (k.id, k.resubmit))

/-- New jobs are only appended, as resubmissions of `i`, and only if `P`. -/
def Appends (P : Prop) (i : Nat) (db db' : DB) : Prop := ∃ new, db'.lineage = db.lineage ++ new ∧ ∀ p ∈ new, p.2 = i ∧ P

theorem Appends.trans {P : Prop} {i : Nat} {a b c : DB} (h1 : Appends P i a b) (h2 : Appends P i b c) : Appends P i a c := by
  obtain ⟨n1, e1, p1⟩ := h1
  obtain ⟨n2, e2, p2⟩ := h2
  refine ⟨n1 ++ n2, by rw [e2, e1, List.append_assoc], ?_⟩
  intro p hp
  rcases List.mem_append.1 hp with hp | hp
  · exact p1 p hp
  · exact p2 p hp

theorem Appends.same {P : Prop} {i : Nat} {db db' : DB} (h : db'.lineage = db.lineage) : Appends P i db db' :=
  ⟨[], by rw [h, List.append_nil], by simp⟩

theorem lineage_updJob (db : DB) (x : Nat) (f : JobRow → JobRow) (h1 : ∀ j, (f j).id = j.id)
    (h2 : ∀ j, (f j).resubmit = j.resubmit) : (db.updJob x f).lineage = db.lineage := by
  unfold DB.lineage DB.updJob
  rw [List.map_map]
  apply List.map_congr_left
  intro j _
  simp only [Function.comp]
  split
  · rw [h1, h2]
  · rfl

theorem lineage_setJobState (db : DB) (now : Int) (x : Nat) (st : String) : (setJobState db now x st).lineage = db.lineage := by
  rcases setJobState_cases db now x st with e | ⟨_, _, _, _, e⟩
  · rw [e]
  · rw [e]; exact lineage_updJob db x (withState st) (withState_id st) (withState_resubmit st)

theorem appends_resubmit {P : Prop} (db : DB) (now : Int) (kc : Bool) (user : String) (i : Nat)
    (hP : ∀ j, db.job? i = some j → j.jtype = "PASSIVE" → P) : Appends P i db (resubmitJob db now kc user i).2.1 := by
  rcases resubmitJob_spec db now kc user i with ⟨j, hj, hp, _, _, _, _, e, _⟩ | ⟨_, _, e⟩
  · refine ⟨[(nextId db, j.id)], ?_, ?_⟩
    · unfold DB.lineage
      rw [e, List.map_append]
      rfl
    · intro p hpm
      rw [List.mem_singleton.1 hpm]
      exact ⟨(job?_some hj).2, hP j hj hp⟩
  · rw [e]; exact .same rfl

theorem appends_ite {P : Prop} {i : Nat} {c : Prop} [Decidable c] {a db : DB} (h : c → Appends P i db a) :
    Appends P i db (if c then a else db) := by
  split
  · rename_i hc; exact h hc
  · exact .same rfl

/-- The jobs that deserve to be resubmitted after an event: passive and not reserved in advance, and either the event is one of
the failures of the infrastructure before the job has started, or the job is idempotent, has exited with code 99, has lasted
more than one minute, has not been killed and has not been resubmitted yet. -/
def Deserves (db : DB) (ev : Event) (j : JobRow) : Prop :=
  j.reservation = "None" ∧ j.jtype = "PASSIVE" ∧
  (ev.type ∈ resubmitTypes ∨
    ((ev.type = "SWITCH_INTO_TERMINATE_STATE" ∨ ev.type = "SWITCH_INTO_ERROR_STATE") ∧
      (∃ c, j.exitCode = some c ∧ c / 256 = 99) ∧ "idempotent" ∈ j.types ∧ 60 < j.stop - j.start ∧
      (∀ e ∈ db.events, e.jid = j.id → e.type ≠ "SEND_KILL_JOB") ∧ ∀ k ∈ db.jobs, k.resubmit ≠ j.id))

theorem idempotent99_iff (db : DB) (ev : Event) (j : JobRow) : idempotent99 db ev j = true ↔
    (ev.type = "SWITCH_INTO_TERMINATE_STATE" ∨ ev.type = "SWITCH_INTO_ERROR_STATE") ∧
      (∃ c, j.exitCode = some c ∧ c / 256 = 99) ∧ "idempotent" ∈ j.types ∧ j.reservation = "None" ∧ j.jtype = "PASSIVE" ∧
      60 < j.stop - j.start ∧ (∀ e ∈ db.events, e.jid = j.id → e.type ≠ "SEND_KILL_JOB") ∧ ∀ k ∈ db.jobs, k.resubmit ≠ j.id := by
  have hexit : exit99 j = true ↔ ∃ c, j.exitCode = some c ∧ c / 256 = 99 := by
    unfold exit99
    cases j.exitCode with
    | none => simp
    | some c =>
      simp only [Bool.and_eq_true, decide_eq_true_eq, Option.some.injEq, exists_eq_left']
      constructor
      · exact fun h => h.2
      · intro h
        refine ⟨?_, h⟩
        rintro rfl
        exact absurd h (by decide)
  have hev : eventExists db j.id "SEND_KILL_JOB" = false ↔ ∀ e ∈ db.events, e.jid = j.id → e.type ≠ "SEND_KILL_JOB" := by
    unfold eventExists
    rw [List.any_eq_false]
    constructor
    · intro h e he e1 e2
      exact h e he (by simp [e1, e2])
    · intro h e he
      simp only [Bool.and_eq_true, beq_iff_eq, not_and]
      exact h e he
  have hres : resubmitted db j.id = false ↔ ∀ k ∈ db.jobs, k.resubmit ≠ j.id := by
    constructor
    · exact resubmitted_false
    · intro h
      unfold resubmitted
      rw [List.any_eq_false]
      intro k hk
      simpa using h k hk
  unfold idempotent99
  simp only [Bool.and_eq_true, Bool.or_eq_true, beq_iff_eq, decide_eq_true_eq, Bool.not_eq_true', hexit, hev, hres]
  constructor
  · rintro ⟨⟨⟨⟨⟨⟨⟨h1, h2⟩, h3⟩, h4⟩, h5⟩, h6⟩, h7⟩, h8⟩
    exact ⟨h1, h2, h3, h4, h5, h8, h7, h6⟩
  · rintro ⟨h1, h2, h3, h4, h5, h8, h7, h6⟩
    exact ⟨⟨⟨⟨⟨⟨⟨h1, h2⟩, h3⟩, h4⟩, h5⟩, h6⟩, h7⟩, h8⟩

theorem lineage_ite {c : Prop} [Decidable c] {a db : DB} (h : a.lineage = db.lineage) : (if c then a else db).lineage = db.lineage := by
  split
  · exact h
  · rfl

theorem lineage_ncs2 (env : Env) (db : DB) (ev : Event) (j : JobRow) : (ncs2 env db ev j).lineage = db.lineage := by
  unfold ncs2
  dsimp only
  rw [lineage_ite (lineage_setJobState _ _ _ _), lineage_ite (lineage_setJobState _ _ _ _)]
  split
  · exact lineage_setJobState _ _ _ _
  · exact lineage_ite (lineage_setJobState _ _ _ _)

theorem lineage_ncs4 {env : Env} {db db' : DB} {ev : Event} {j : JobRow} (h : ncs4 env db ev j = some db') :
    db'.lineage = db.lineage := by
  have hact : ∀ d : DB, (suspendAction d env.now j.id).lineage = d.lineage := fun d => by
    unfold suspendAction
    rw [lineage_updJob _ _ (fun j : JobRow => { j with suspended := true }) (fun _ => rfl) (fun _ => rfl), lineage_setJobState]
  unfold ncs4 at h
  split at h
  · split at h
    · rw [← Option.some.inj h]; exact lineage_setJobState _ _ _ _
    split at h
    · rw [← Option.some.inj h]; exact lineage_setJobState _ _ _ _
    split at h
    · split at h
      · exact absurd h (by simp)
      · rw [← Option.some.inj h]
        unfold suspendJob
        split
        · rfl
        · rfl
        · rfl
        · exact hact db
        · rw [lineage_setJobState]
          exact hact db
        · unfold DB.lineage
          rw [(fragJob_jobs _ _ _ _).1]
          rfl
    split at h
    · rw [← Option.some.inj h]; exact lineage_setJobState _ _ _ _
    split at h
    · rw [← Option.some.inj h]; exact lineage_setJobState _ _ _ _
    · rw [← Option.some.inj h]
  · rw [← Option.some.inj h]

/-- The treatment of an event creates no job but a resubmission of the job of the event, and only if this job deserves it. -/
theorem event_resubmits {env : Env} {db db' : DB} {ev : Event} {hs : List (String × Bool)} {j : JobRow}
    (hj : db.job? ev.jid = some j) (h : ncsEvent env db ev = some (db', hs)) :
    ∃ new, db'.lineage = db.lineage ++ new ∧ ∀ p ∈ new, p.2 = ev.jid ∧ Deserves db ev j := by
  have hid := (job?_some hj).2
  unfold ncsEvent at h
  rw [hj] at h
  dsimp only at h
  cases hsu : suspectHosts env ev j with
  | none => rw [hsu] at h; exact absurd h (by simp)
  | some v =>
    obtain ⟨hosts, finaud, logged⟩ := v
    rw [hsu] at h
    dsimp only at h
    cases h4 : ncs4 env (ncs3 env (if logged = true then addEventHosts (ncs2 env (ncs1 env db ev j) ev j) "LOG_SUSPECTED" 0 hosts
        else ncs2 env (ncs1 env db ev j) ev j) ev j) ev j with
    | none => rw [h4] at h; exact absurd h (by simp)
    | some d4 =>
      rw [h4] at h
      dsimp only at h
      rw [← (Prod.mk.inj (Option.some.inj h)).1, ← hid]
      show Appends (Deserves db ev j) j.id db d4
      have a1 : Appends (Deserves db ev j) j.id db (ncs1 env db ev j) := by
        unfold ncs1
        refine appends_ite (fun hc => appends_resubmit _ _ _ _ _ (fun k _ _ => ?_))
        obtain ⟨c1, c2, c3, c4, c5, c6, c7, c8⟩ := (idempotent99_iff db ev j).1 hc
        exact ⟨c4, c5, Or.inr ⟨c1, c2, c3, c6, c7, c8⟩⟩
      have a2 : Appends (Deserves db ev j) j.id (ncs1 env db ev j) (ncs2 env (ncs1 env db ev j) ev j) :=
        .same (lineage_ncs2 env (ncs1 env db ev j) ev j)
      generalize ncs2 env (ncs1 env db ev j) ev j = d2 at h4 a2
      have a3 : Appends (Deserves db ev j) j.id d2 (if logged = true then addEventHosts d2 "LOG_SUSPECTED" 0 hosts else d2) :=
        .same (lineage_ite rfl)
      generalize (if logged = true then addEventHosts d2 "LOG_SUSPECTED" 0 hosts else d2) = d3 at h4 a3
      have a4 : Appends (Deserves db ev j) j.id d3 (ncs3 env d3 ev j) := by
        unfold ncs3
        dsimp only
        have b1 : Appends (Deserves db ev j) j.id d3 (if ev.type ∈ stopTypes then setJobState d3 env.now j.id "Error" else d3) :=
          .same (lineage_ite (lineage_setJobState _ _ _ _))
        generalize (if ev.type ∈ stopTypes then setJobState d3 env.now j.id "Error" else d3) = d3' at b1 ⊢
        refine .trans b1 (appends_ite (fun hc => ?_))
        exact appends_resubmit _ _ _ _ _ (fun k _ _ => ⟨hc.2.1, hc.2.2.1, Or.inl hc.1⟩)
      exact .trans (.trans (.trans (.trans a1 a2) a3) a4) (.same (lineage_ncs4 h4))

/-- Conversely, an idempotent passive job that ends with exit code 99 after more than a minute, without having been killed nor
resubmitted, is resubmitted when its end event is treated (if its ssh keys are free). -/
theorem exit99_resubmitted {env : Env} {db db' : DB} {ev : Event} {hs : List (String × Bool)} {j : JobRow}
    (hj : db.job? ev.jid = some j) (hd : Done j.state) (hk : env.keyClash = false) (hdes : Deserves db ev j)
    (hty : ev.type = "SWITCH_INTO_TERMINATE_STATE" ∨ ev.type = "SWITCH_INTO_ERROR_STATE")
    (h : ncsEvent env db ev = some (db', hs)) : ∃ k ∈ db'.jobs, k.resubmit = j.id ∧ k.state = "Waiting" ∧ k.user = j.user := by
  have hid := (job?_some hj).2
  obtain ⟨d1, d2, d3⟩ := hdes
  have d3' := d3.resolve_left (by rcases hty with h | h <;> rw [h] <;> decide)
  have h99 : idempotent99 db ev j = true :=
    (idempotent99_iff db ev j).2 ⟨d3'.1, d3'.2.1, d3'.2.2.1, d1, d2, d3'.2.2.2.1, d3'.2.2.2.2.1, d3'.2.2.2.2.2⟩
  have hn1 : newJobRow j (nextId db) ∈ (ncs1 env db ev j).jobs := by
    unfold ncs1
    rw [if_pos h99]
    rcases resubmitJob_spec db env.now env.keyClash "oar" j.id with ⟨k, hk', _, _, _, _, _, e, _⟩ | ⟨hn, _⟩
    · rw [e]
      rw [hid, hj] at hk'
      rw [← Option.some.inj hk']
      simp
    · exact absurd ⟨j, by rw [hid]; exact hj, d2, hd, Or.inr (Or.inl rfl), hk⟩ hn
  have hne : (newJobRow j (nextId db)).id ≠ j.id := by
    have := lt_nextId (job?_some hj).1
    show nextId db ≠ j.id
    omega
  unfold ncsEvent at h
  rw [hj] at h
  dsimp only at h
  cases hsu : suspectHosts env ev j with
  | none => rw [hsu] at h; exact absurd h (by simp)
  | some v =>
    obtain ⟨hosts, finaud, logged⟩ := v
    rw [hsu] at h
    dsimp only at h
    cases h4 : ncs4 env (ncs3 env (if logged = true then addEventHosts (ncs2 env (ncs1 env db ev j) ev j) "LOG_SUSPECTED" 0 hosts
        else ncs2 env (ncs1 env db ev j) ev j) ev j) ev j with
    | none => rw [h4] at h; exact absurd h (by simp)
    | some d4 =>
      rw [h4] at h
      dsimp only at h
      rw [← (Prod.mk.inj (Option.some.inj h)).1]
      have ho : Others j.id (ncs1 env db ev j) d4 := by
        refine .trans (.trans (.trans (others_ncs2 env _ ev j) ?_) (others_ncs3 env _ ev j)) (others_ncs4 h4)
        split
        · exact .same rfl
        · exact .same rfl
      exact ⟨_, ho _ hn1 hne, rfl, rfl, rfl⟩

/-- The end of an idempotent job with exit code 99 after 100 seconds. -/
def exIdem : DB :=
  ⟨[⟨1, "bob", "Finishing", "PASSIVE", "None", 5, 105, false, ["idempotent"], some (99 * 256), 7, 200, 0, 0⟩], [⟨1, "Finishing", 105, 0⟩], [],
   [⟨"SWITCH_INTO_TERMINATE_STATE", 1, true, []⟩], [⟨4, 1⟩]⟩

example : ∃ v, ncsEvents exEnv exIdem = some v ∧ (v.1.jobs.map (fun k => (k.id, k.state, k.resubmit))) =
    [(1, "Terminated", 0), (2, "Waiting", 1)] ∧ v.1.deps = [⟨4, 2⟩] := ⟨_, rfl, by decide⟩

/-- The end of a job killed for another one: it is resubmitted exactly if it is a passive best-effort and idempotent job killed
by the scheduler. -/
theorem checkEnd_resubmits {db : DB} {now : Int} {kc : Bool} {extra : List (String × List String)} {jid : Nat} {j : JobRow}
    {exit : Option Int} {error : Int} (hj : db.job? jid = some j) :
    ∃ new, (checkEnd db now kc extra jid exit error).lineage = db.lineage ++ new ∧ ∀ p ∈ new, p.2 = jid ∧
      (j.jtype = "PASSIVE" ∧ error = 3 ∧ "besteffort" ∈ j.types ∧ "idempotent" ∈ j.types ∧
        ∃ e ∈ db.events, e.jid = jid ∧ e.type = "BESTEFFORT_KILL") := by
  have hid := (job?_some hj).2
  unfold checkEnd
  rw [hj]
  dsimp only
  split
  · have hl : (setJobState (setFinish db now jid) now jid "Finishing").lineage = db.lineage := by
      rw [lineage_setJobState]
      exact lineage_updJob db jid _ (fun _ => rfl) (fun _ => rfl)
    have he : (setJobState (setFinish db now jid) now jid "Finishing").events = db.events := by
      rcases setJobState_cases (setFinish db now jid) now jid "Finishing" with e | ⟨_, _, _, _, e⟩ <;> rw [e] <;> rfl
    have hjt : ∀ k, (setJobState (setFinish db now jid) now jid "Finishing").job? jid = some k → k.jtype = j.jtype := by
      intro k hk
      have h1 : (setFinish db now jid).job? jid = some { j with stop := if now < j.start then j.start else now } := by
        unfold setFinish
        rw [job?_updJob_same (fun j : JobRow => { j with stop := if now < j.start then j.start else now }) (fun _ => rfl), hj]
        rfl
      rcases setJobState_cases (setFinish db now jid) now jid "Finishing" with e | ⟨i, hi, _, _, e⟩
      · rw [e, h1] at hk
        rw [← Option.some.inj hk]
      · rw [e] at hk
        have hk' : ((setFinish db now jid).updJob jid (withState "Finishing")).job? jid = some k := hk
        rw [job?_updJob_same _ (withState_id _), h1] at hk'
        rw [← Option.some.inj hk']
        rfl
    generalize setJobState (setFinish db now jid) now jid "Finishing" = d1 at hl he hjt
    have core : ∀ d : DB, d.lineage = db.lineage → d.events = db.events → (∀ k, d.job? jid = some k → k.jtype = j.jtype) →
        Appends (j.jtype = "PASSIVE" ∧ error = 3 ∧ "besteffort" ∈ j.types ∧ "idempotent" ∈ j.types ∧
        ∃ e ∈ db.events, e.jid = jid ∧ e.type = "BESTEFFORT_KILL") jid db
          (finishing (endResubmit d now kc j error).1 jid (endResubmit d now kc j error).2 extra) := by
      intro d h1 h2 h3
      refine .trans (.same h1) (.trans (b := (endResubmit d now kc j error).1) ?_ (.same ?_))
      · unfold endResubmit
        split
        · rename_i hc
          rw [hid]
          refine appends_resubmit _ _ _ _ _ (fun k hk hp => ⟨?_, hc.1, hc.2.1, hc.2.2.1, ?_⟩)
          · rw [← h3 k hk]; exact hp
          · obtain ⟨e, he, hc'⟩ := List.any_eq_true.1 hc.2.2.2
            simp only [Bool.and_eq_true, beq_iff_eq] at hc'
            exact ⟨e, h2 ▸ he, hc'.1.trans hid, hc'.2⟩
        · exact .same rfl
      · unfold DB.lineage
        rw [finishing_jobs]
    cases exit with
    | none => exact core d1 hl he hjt
    | some c =>
      refine core (d1.updJob jid (fun j => { j with exitCode := some c })) ?_ he ?_
      · rw [lineage_updJob d1 jid (fun j : JobRow => { j with exitCode := some c }) (fun _ => rfl) (fun _ => rfl)]; exact hl
      · intro k hk
        rw [job?_updJob_same (fun j : JobRow => { j with exitCode := some c }) (fun _ => rfl)] at hk
        cases hx : d1.job? jid with
        | none => rw [hx] at hk; exact absurd hk (by simp)
        | some y =>
          rw [hx] at hk
          rw [← hjt y hx, ← Option.some.inj hk]
  · exact ⟨[], by simp, by simp⟩

/-! ## The suspected nodes and the treatment of all the events -/

/-- Only nodes named by the event or used by its job are suspected, and only for the events that report a failure of nodes. -/
theorem event_suspects {env : Env} {db db' : DB} {ev : Event} {hs : List (String × Bool)} {j : JobRow}
    (hj : db.job? ev.jid = some j) (h : ncsEvent env db ev = some (db', hs)) :
    ∀ x ∈ hs, ev.type ∈ suspectTypes ∧ x.1 ≠ "" ∧
      ((ev.type ∈ ["PING_CHECKER_NODE_SUSPECTED", "PING_CHECKER_NODE_SUSPECTED_END_JOB"] ++ srTypes ∧ x.1 ∈ ev.hosts) ∨
       x.1 ∈ env.hostLog j.assigned) := by
  unfold ncsEvent at h
  rw [hj] at h
  dsimp only at h
  cases hsu : suspectHosts env ev j with
  | none => rw [hsu] at h; exact absurd h (by simp)
  | some v =>
    obtain ⟨hosts, finaud, logged⟩ := v
    rw [hsu] at h
    dsimp only at h
    cases h4 : ncs4 env (ncs3 env (if logged = true then addEventHosts (ncs2 env (ncs1 env db ev j) ev j) "LOG_SUSPECTED" 0 hosts
        else ncs2 env (ncs1 env db ev j) ev j) ev j) ev j with
    | none => rw [h4] at h; exact absurd h (by simp)
    | some d4 =>
      rw [h4] at h
      dsimp only at h
      intro x hx
      rw [← (Prod.mk.inj (Option.some.inj h)).2] at hx
      obtain ⟨y, hy, rfl⟩ := List.mem_map.1 hx
      obtain ⟨hy1, hy2⟩ := List.mem_filter.1 hy
      have hy1' : y ∈ hosts := List.mem_eraseDups.1 hy1
      have hne : y ≠ "" := by simpa using hy2
      unfold suspectHosts at hsu
      split at hsu
      · rename_i hty
        refine ⟨hty, hne, ?_⟩
        split at hsu
        · rename_i hc
          rw [← (Prod.mk.inj (Option.some.inj hsu)).1] at hy1'
          left
          refine ⟨?_, hy1'⟩
          rcases hc with hc | hc <;> rw [hc] <;> decide
        split at hsu
        · rename_i hc
          rw [← (Prod.mk.inj (Option.some.inj hsu)).1] at hy1'
          exact Or.inl ⟨List.mem_append_right _ hc, hy1'⟩
        split at hsu
        · rw [← (Prod.mk.inj (Option.some.inj hsu)).1] at hy1'
          right
          split at hy1'
          · exact absurd hy1' (by simp)
          · exact hy1'
        · split at hsu
          · exact absurd hsu (by simp)
          · rename_i a l hl
            rw [← (Prod.mk.inj (Option.some.inj hsu)).1] at hy1'
            right
            rw [hl, List.mem_singleton.1 hy1']
            simp
      · rw [← (Prod.mk.inj (Option.some.inj hsu)).1] at hy1'
        exact absurd hy1' (by simp)

/-- All the nodes of a job are suspected after an error of the prologue, of the epilogue, or a forced end. -/
theorem event_suspects_all {env : Env} {db db' : DB} {ev : Event} {hs : List (String × Bool)} {j : JobRow}
    (hj : db.job? ev.jid = some j) (ht : ev.type = "PROLOGUE_ERROR" ∨ ev.type = "EPILOGUE_ERROR" ∨
      ev.type = "FORCE_TERMINATE_FINISHING_JOB") (h : ncsEvent env db ev = some (db', hs)) :
    ∀ x ∈ env.hostLog j.assigned, x ≠ "" → (x, false) ∈ hs := by
  unfold ncsEvent at h
  rw [hj] at h
  dsimp only at h
  have hsu : suspectHosts env ev j = some (env.hostLog j.assigned, false, true) := by
    unfold suspectHosts
    rw [if_pos (by rcases ht with h | h | h <;> rw [h] <;> decide), if_neg (by rcases ht with h | h | h <;> rw [h] <;> decide),
      if_neg (by rcases ht with h | h | h <;> rw [h] <;> decide), if_pos (by rcases ht with h | h | h <;> rw [h] <;> decide),
      if_neg (by
        rintro ⟨_, h'⟩
        revert h'
        rcases ht with h | h | h <;> rw [h] <;> decide)]
  rw [hsu] at h
  dsimp only at h
  cases h4 : ncs4 env (ncs3 env (if true = true then addEventHosts (ncs2 env (ncs1 env db ev j) ev j) "LOG_SUSPECTED" 0
      (env.hostLog j.assigned) else ncs2 env (ncs1 env db ev j) ev j) ev j) ev j with
  | none => rw [h4] at h; exact absurd h (by simp)
  | some d4 =>
    rw [h4] at h
    dsimp only at h
    intro x hx hne
    rw [← (Prod.mk.inj (Option.some.inj h)).2]
    refine List.mem_map.2 ⟨x, List.mem_filter.2 ⟨List.mem_eraseDups.2 hx, by simpa using hne⟩, rfl⟩

/-- Once treated, the events of this type and job are no more to be checked. -/
theorem event_checked {env : Env} {db db' : DB} {ev : Event} {hs : List (String × Bool)}
    (h : ncsEvent env db ev = some (db', hs)) : ∀ e ∈ db'.events, e.jid = ev.jid → e.type = ev.type → e.toCheck = false := by
  have key : ∀ d : DB, ∀ e ∈ (checkEvent d ev.type ev.jid).events, e.jid = ev.jid → e.type = ev.type → e.toCheck = false := by
    intro d e he e1 e2
    obtain ⟨x, _, rfl⟩ := List.mem_map.1 he
    split at e1
    · rename_i hc
      rw [if_pos hc]
    · rename_i hc
      rw [if_neg hc] at e2 ⊢
      cases hx : x.toCheck with
      | false => rfl
      | true => exact absurd ⟨e1, e2, hx⟩ hc
  unfold ncsEvent at h
  cases hj : db.job? ev.jid with
  | none =>
    rw [hj] at h
    dsimp only at h
    split at h
    · exact absurd h (by simp)
    · rw [← (Prod.mk.inj (Option.some.inj h)).1]
      exact key db
  | some j =>
    rw [hj] at h
    dsimp only at h
    cases hsu : suspectHosts env ev j with
    | none => rw [hsu] at h; exact absurd h (by simp)
    | some v =>
      obtain ⟨hosts, finaud, logged⟩ := v
      rw [hsu] at h
      dsimp only at h
      cases h4 : ncs4 env (ncs3 env (if logged = true then addEventHosts (ncs2 env (ncs1 env db ev j) ev j) "LOG_SUSPECTED" 0 hosts
          else ncs2 env (ncs1 env db ev j) ev j) ev j) ev j with
      | none => rw [h4] at h; exact absurd h (by simp)
      | some d4 =>
        rw [h4] at h
        dsimp only at h
        rw [← (Prod.mk.inj (Option.some.inj h)).1]
        exact key d4

/-- C54: one event can stop the treatment of all the others: an error of oarexec on a job without node raises an exception
before the event is marked as checked, so that the event is there again at the next run, and the end of job 2 is never
treated. -/
theorem one_event_blocks_violated :
    ncsEvents ⟨31, fun _ => [], false, .done, false⟩
      ⟨[⟨1, "bob", "Running", "PASSIVE", "None", 5, 0, false, [], none, 7, 200, 0, 0⟩,
        ⟨2, "bob", "Finishing", "PASSIVE", "None", 5, 9, false, [], none, 8, 200, 0, 0⟩],
       [], [], [⟨"EXIT_VALUE_OAREXEC", 1, true, []⟩, ⟨"SWITCH_INTO_TERMINATE_STATE", 2, true, []⟩], []⟩ = none := by
  rfl

/-- When no event raises an exception, all of them are treated: afterwards, no event of the initial list is to be checked. -/
theorem events_all_checked_partial {env : Env} {db db' : DB} {hs : List (String × Bool)}
    (h : ncsEvents env db = some (db', hs)) : ∀ ev ∈ db.events, ev.toCheck = true →
      ∃ d d' hs', ncsEvent env d ev = some (d', hs') ∧ ∀ x ∈ hs', x ∈ hs := by
  have loop : ∀ (evs : List Event) (db db' : DB) (hs : List (String × Bool)), ncsLoop env evs db = some (db', hs) →
      ∀ ev ∈ evs, ∃ d d' hs', ncsEvent env d ev = some (d', hs') ∧ ∀ x ∈ hs', x ∈ hs := by
    intro evs
    induction evs with
    | nil => intro _ _ _ _ ev hev; simp at hev
    | cons e evs ih =>
      intro db db' hs h ev hev
      unfold ncsLoop at h
      cases he : ncsEvent env db e with
      | none => rw [he] at h; exact absurd h (by simp)
      | some v =>
        obtain ⟨d1, h1⟩ := v
        rw [he] at h
        dsimp only at h
        cases hl : ncsLoop env evs d1 with
        | none => rw [hl] at h; exact absurd h (by simp)
        | some v2 =>
          obtain ⟨d2, h2⟩ := v2
          rw [hl] at h
          dsimp only at h
          have hs' := (Prod.mk.inj (Option.some.inj h)).2
          rcases List.mem_cons.1 hev with e1 | e1
          · rw [e1]
            exact ⟨db, d1, h1, he, fun x hx => by rw [← hs']; exact List.mem_append_left _ hx⟩
          · obtain ⟨d, d', hs2, g1, g2⟩ := ih d1 d2 h2 hl ev e1
            exact ⟨d, d', hs2, g1, fun x hx => by rw [← hs']; exact List.mem_append_right _ (g2 x hx)⟩
  intro ev hev hc
  exact loop _ db db' hs h ev (List.mem_filter.2 ⟨hev, hc⟩)

/-! ## The end of the jobs -/

/-- The events that end their job, whatever its kind. -/
def endingTypes : List String :=
  ["SWITCH_INTO_TERMINATE_STATE", "EPILOGUE_ERROR", "CPUSET_CLEAN_ERROR", "SWITCH_INTO_ERROR_STATE",
   "FORCE_TERMINATE_FINISHING_JOB", "EXTERMINATE_JOB", "PROLOGUE_ERROR", "EXIT_VALUE_OAREXEC", "RESERVATION_NO_NODE",
   "CANNOT_WRITE_NODE_FILE", "CANNOT_WRITE_PID_FILE", "USER_SHELL", "CANNOT_CREATE_TMP_DIRECTORY", "LAUNCHING_OAREXEC_TIMEOUT",
   "BAD_HASHTABLE_DUMP", "SSH_TRANSFER_TIMEOUT", "SERVER_PROLOGUE_TIMEOUT", "SERVER_PROLOGUE_EXIT_CODE_ERROR",
   "SERVER_EPILOGUE_TIMEOUT", "SERVER_EPILOGUE_EXIT_CODE_ERROR"]

theorem ending_sends {ty : String} (h : ty ∈ endingTypes) (j : JobRow) : (∃ st, Ended st ∧ Sends ty j st) ∧ ¬ IsHold ty := by
  simp only [endingTypes, List.mem_cons, List.not_mem_nil, or_false] at h
  rcases h with h | h | h | h | h | h | h | h | h | h | h | h | h | h | h | h | h | h | h | h <;> rw [h]
  · exact ⟨⟨_, Or.inl rfl, .terminate j⟩, by unfold IsHold; decide⟩
  · exact ⟨⟨_, Or.inl rfl, .epilogue j⟩, by unfold IsHold; decide⟩
  · exact ⟨⟨_, Or.inl rfl, .clean j⟩, by unfold IsHold; decide⟩
  · exact ⟨⟨_, Or.inr rfl, .error j⟩, by unfold IsHold; decide⟩
  · exact ⟨⟨_, Or.inr rfl, .force j⟩, by unfold IsHold; decide⟩
  all_goals first
    | exact ⟨⟨_, Or.inr rfl, .job _ j (by decide)⟩, by unfold IsHold; decide⟩
    | exact ⟨⟨_, Or.inr rfl, .server _ j (by decide)⟩, by unfold IsHold; decide⟩

/-- In every history, when the events are treated, each job that has an end event to be treated is Terminated or in Error
afterwards, whatever the other events are. -/
theorem end_event_ends {t : Int} {db db' : DB} (hh : History t db) {env : Env} (hle : t ≤ env.now) {hs : List (String × Bool)}
    (h : ncsEvents env db = some (db', hs)) {ev : Event} (hev : ev ∈ db.events) (hc : ev.toCheck = true)
    (hty : ev.type ∈ endingTypes) (hjob : ∃ j ∈ db.jobs, j.id = ev.jid) : ∃ j ∈ db'.jobs, j.id = ev.jid ∧ Ended j.state := by
  have hpos : 0 < env.now := by have := hh.pos; omega
  have loop : ∀ (evs : List Event) (db db' : DB) (hs : List (String × Bool)), Inv env.now db → ev ∈ evs →
      (∃ j ∈ db.jobs, j.id = ev.jid) → ncsLoop env evs db = some (db', hs) → ∃ j ∈ db'.jobs, j.id = ev.jid ∧ Ended j.state := by
    intro evs
    induction evs with
    | nil => intro _ _ _ _ hm; simp at hm
    | cons e evs ih =>
      intro db db' hs hi hm hex hl
      unfold ncsLoop at hl
      cases he : ncsEvent env db e with
      | none => rw [he] at hl; exact absurd hl (by simp)
      | some v =>
        obtain ⟨d1, h1⟩ := v
        rw [he] at hl
        dsimp only at hl
        have m1 := micro_ncsEvent hi he
        have hi1 := m1.inv hpos hi
        cases hl2 : ncsLoop env evs d1 with
        | none => rw [hl2] at hl; exact absurd hl (by simp)
        | some v2 =>
          obtain ⟨d2, h2⟩ := v2
          rw [hl2] at hl
          dsimp only at hl
          rw [← (Prod.mk.inj (Option.some.inj hl)).1]
          rcases List.mem_cons.1 hm with e1 | e1
          · have m2 := micro_ncsLoop hpos evs hi1 hl2
            obtain ⟨j, hj, hid⟩ := hex
            have hj? : db.job? e.jid = some j := by rw [← e1, ← hid]; exact job?_of_mem hi.ids hj
            obtain ⟨⟨st, hst, hsend⟩, hnh⟩ := ending_sends (e1 ▸ hty) j
            have hstate := (event_state hj? hnh he).1 st hsend
            have hE : Ended (if j.state ∈ aliveStates then st else j.state) := by
              split
              · exact hst
              · rename_i hna
                exact (allStates_cases (hi.valid j hj)).resolve_left hna
            unfold DB.stateOf at hstate
            cases hd : d1.job? e.jid with
            | none => rw [hd] at hstate; exact absurd hstate (by simp)
            | some k =>
              rw [hd] at hstate
              obtain ⟨hk1, hk2⟩ := job?_some hd
              have hks : k.state = (if j.state ∈ aliveStates then st else j.state) := Option.some.inj hstate
              obtain ⟨l, hl1, hl3, hl4⟩ := m2.keeps hpos hi1 k hk1 (hks ▸ hE)
              exact ⟨l, hl1, by rw [hl3, hk2, e1], by rw [hl4, hks]; exact hE⟩
          · obtain ⟨j, hj, hid⟩ := hex
            obtain ⟨k, hk, hkid⟩ := m1.keepsJob j hj
            exact ih d1 d2 h2 hi1 e1 ⟨k, hk, by rw [hkid, hid]⟩ hl2
  exact loop _ db db' hs (hh.inv.mono hle) (List.mem_filter.2 ⟨hev, hc⟩) hjob h

/-- The extermination of a job registers the event that ends it, to be checked, arms the timer again, and changes no job. -/
theorem exterminate_event (w : World) (db : DB) (jid : Nat) :
    (fragState db jid = some "LEON_EXTERMINATE" →
      ⟨"EXTERMINATE_JOB", jid, true, []⟩ ∈ (leonExterminate w db jid).events ∧
      (∀ f ∈ (leonExterminate w db jid).frags, f.jid = jid → f.state = "TIMER_ARMED")) ∧
    (fragState db jid ≠ some "LEON_EXTERMINATE" → leonExterminate w db jid = db) ∧
    (leonExterminate w db jid).jobs = db.jobs := by
  have hfr : ∀ (l : List (String × List String)) (d : DB),
      (l.foldl (fun (d : DB) (e : String × List String) => addEventHosts d e.1 jid e.2) d).frags = d.frags ∧
      ∀ e ∈ d.events, e ∈ (l.foldl (fun (d : DB) (e : String × List String) => addEventHosts d e.1 jid e.2) d).events := by
    intro l
    induction l with
    | nil => intro d; exact ⟨rfl, fun e he => he⟩
    | cons a l ih =>
      intro d
      rw [List.foldl_cons]
      obtain ⟨i1, i2⟩ := ih (addEventHosts d a.1 jid a.2)
      exact ⟨i1, fun e he => i2 e (List.mem_append_left _ he)⟩
  refine ⟨?_, ?_, ?_⟩
  · intro h
    unfold leonExterminate
    rw [if_pos h]
    unfold finishing
    obtain ⟨h1, h2⟩ := hfr (w.extra jid) (addEvent (setFrag db jid "TIMER_ARMED") "EXTERMINATE_JOB" jid)
    rw [List.foldl_cons, List.foldl_nil]
    refine ⟨h2 _ (List.mem_append_right _ (List.mem_singleton.2 rfl)), ?_⟩
    rw [h1]
    intro f hf e
    obtain ⟨g, _, rfl⟩ := List.mem_map.1 hf
    by_cases hg : g.jid = jid
    · rw [if_pos hg]
    · rw [if_neg hg] at e
      exact absurd e hg
  · intro h
    unfold leonExterminate
    rw [if_neg h]
  · unfold leonExterminate
    split
    · rw [finishing_jobs]; rfl
    · rfl

example : ∃ v, ncsEvents exEnv (leonExterminate ⟨fun _ => true, fun _ => [], fun _ => true⟩
      ⟨[⟨1, "bob", "Finishing", "PASSIVE", "None", 5, 105, false, [], none, 7, 200, 0, 0⟩], [⟨1, "Finishing", 105, 0⟩], [⟨1, 30, "LEON_EXTERMINATE"⟩],
       [], []⟩ 1) = some v ∧ v.1.jobs.map JobRow.state = ["Error"] := ⟨_, rfl, by decide⟩

end Oar.Jobs
