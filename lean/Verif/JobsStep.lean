import Verif.JobsLemmas

/-! # The steps of the modules are sequences of elementary actions -/

namespace Oar.Jobs

theorem micro_holdJob (now : Int) (db : DB) (al : Bool) (jid : Nat) (r : Bool) (u : String) :
    Micro now db (holdJob db al jid r u).2 := by
  unfold holdJob
  cases db.job? jid with
  | none => exact .refl db
  | some j =>
    dsimp only
    split
    · exact .refl db
    split
    · split
      · exact micro_addEvent now db _ _
      · exact .refl db
    · exact .refl db

theorem micro_resumeJob (now : Int) (db : DB) (al : Bool) (jid : Nat) (u : String) :
    Micro now db (resumeJob db al jid u).2 := by
  unfold resumeJob
  cases db.job? jid with
  | none => exact .refl db
  | some j =>
    dsimp only
    split
    · exact .refl db
    split
    · split
      · exact micro_addEvent now db _ _
      · exact .refl db
    · exact .refl db

theorem micro_askCheckpoint (now : Int) (db : DB) (jid : Nat) (s : Option String) (u : String) :
    Micro now db (askCheckpoint db jid s u).2 := by
  unfold askCheckpoint
  cases db.job? jid with
  | none => exact .refl db
  | some j =>
    dsimp only
    split
    · exact .refl db
    split
    · split
      · cases s
        · exact micro_addEvent now db _ _
        · exact micro_addEvent now db _ _
      · exact .refl db
    · exact .refl db

/-- The resubmission columns are not changed by a change of state. -/
theorem setJobState_resubmit {db : DB} {now : Int} {jid : Nat} {st : String} {k : JobRow}
    (hk : k ∈ (setJobState db now jid st).jobs) : ∃ i ∈ db.jobs, i.resubmit = k.resubmit := by
  rcases setJobState_cases db now jid st with e | ⟨j, _, _, _, e⟩
  · rw [e] at hk; exact ⟨k, hk, rfl⟩
  · rw [e] at hk
    obtain ⟨i, hi, hc⟩ := mem_updJob (show k ∈ (db.updJob jid (withState st)).jobs from hk)
    rcases hc with ⟨_, rfl⟩ | ⟨_, rfl⟩
    · exact ⟨i, hi, rfl⟩
    · exact ⟨k, hi, rfl⟩

theorem updJob_resubmit {db : DB} {jid : Nat} {f : JobRow → JobRow} (hf : ∀ j, (f j).resubmit = j.resubmit) {k : JobRow}
    (hk : k ∈ (db.updJob jid f).jobs) : ∃ i ∈ db.jobs, i.resubmit = k.resubmit := by
  obtain ⟨i, hi, hc⟩ := mem_updJob hk
  rcases hc with ⟨_, rfl⟩ | ⟨_, rfl⟩
  · exact ⟨i, hi, (hf i).symm⟩
  · exact ⟨k, hi, rfl⟩

/-- A job that is still executed has not been resubmitted. -/
theorem not_resubmitted {now : Int} {db : DB} (h : Inv now db) {j : JobRow} (hj : j ∈ db.jobs) (hst : ¬ Done j.state) :
    j.id = 0 ∨ ∀ k ∈ db.jobs, k.resubmit ≠ j.id := by
  by_cases h0 : j.id = 0
  · exact Or.inl h0
  right
  intro k hk e
  obtain ⟨p, hp, hp1, hp2⟩ := h.parent k hk (by omega)
  have : p = j := inj_of_sorted h.ids p hp j hj (by omega)
  rw [this] at hp2
  exact hst hp2

theorem running_not_done {st : String}
    (h : st = "Running" ∨ st = "Launching" ∨ st = "Suspended" ∨ st = "Resuming" ∨ st = "Waiting" ∨ st = "Hold") : ¬ Done st := by
  unfold Done Ended
  rcases h with h | h | h | h | h | h <;> rw [h] <;> decide

theorem micro_endResubmit {now : Int} {kc : Bool} {db : DB} {j : JobRow} (error : Int)
    (hn : j.id = 0 ∨ ∀ k ∈ db.jobs, k.resubmit ≠ j.id) : Micro now db (endResubmit db now kc j error).1 := by
  unfold endResubmit
  split
  · exact micro_resubmit now kc "oar" hn
  · exact .refl db

theorem micro_checkEnd {now : Int} {db : DB} (h : Inv now db) (kc : Bool) (extra : List (String × List String)) (jid : Nat)
    (exit : Option Int) (error : Int) : Micro now db (checkEnd db now kc extra jid exit error) := by
  unfold checkEnd
  cases hj : db.job? jid with
  | none => exact .refl db
  | some j =>
    obtain ⟨hjm, hjid⟩ := job?_some hj
    dsimp only
    split
    · rename_i hst
      have hn := not_resubmitted h hjm (running_not_done (by
        rcases hst with h | h | h | h
        · exact Or.inl h
        · exact Or.inr (Or.inl h)
        · exact Or.inr (Or.inr (Or.inl h))
        · exact Or.inr (Or.inr (Or.inr (Or.inl h)))))
      have m1 : Micro now db (setJobState (setFinish db now jid) now jid "Finishing") :=
        .trans (micro_setFinish now db jid) (.state _ jid "Finishing" (by decide) (fun _ _ _ _ => Or.inr rfl))
      have n1 : j.id = 0 ∨ ∀ k ∈ (setJobState (setFinish db now jid) now jid "Finishing").jobs, k.resubmit ≠ j.id := by
        rcases hn with hn | hn
        · exact Or.inl hn
        · right
          intro k hk
          obtain ⟨i, hi, e⟩ := setJobState_resubmit hk
          obtain ⟨i', hi', e'⟩ := updJob_resubmit
            (f := fun j : JobRow => { j with stop := if now < j.start then j.start else now }) (fun _ => rfl) hi
          rw [← e, ← e']
          exact hn i' hi'
      generalize setJobState (setFinish db now jid) now jid "Finishing" = db1 at m1 n1
      cases exit with
      | none =>
        dsimp only
        exact .trans m1 (.trans (micro_endResubmit error n1) (micro_finishing now _ _ _ _))
      | some c =>
        dsimp only
        refine .trans m1 (.trans (micro_updJob now db1 jid _ ?_) (.trans (micro_endResubmit error ?_) (micro_finishing now _ _ _ _)))
        · intro _; rfl
        · rcases n1 with n1 | n1
          · exact Or.inl n1
          · right
            intro k hk
            obtain ⟨i, hi, e⟩ := updJob_resubmit (f := fun j => { j with exitCode := some c }) (fun _ => rfl) hk
            rw [← e]
            exact n1 i hi
    · exact .refl db

theorem micro_ncs1 (env : Env) (db : DB) (ev : Event) (j : JobRow) : Micro env.now db (ncs1 env db ev j) := by
  unfold ncs1
  split
  · rename_i hc
    have : resubmitted db j.id = false := by
      unfold idempotent99 at hc
      simp only [Bool.and_eq_true, Bool.not_eq_true'] at hc
      exact hc.1.1.2
    exact micro_resubmit _ _ _ (Or.inr (resubmitted_false this))
  · exact .refl db

theorem micro_ncs2 (env : Env) (db : DB) (ev : Event) (j : JobRow) : Micro env.now db (ncs2 env db ev j) := by
  unfold ncs2
  dsimp only
  have h1 : Micro env.now db (if ev.type = "SWITCH_INTO_TERMINATE_STATE" then setJobState db env.now j.id "Terminated"
    else if ev.type = "SWITCH_INTO_ERROR_STATE" ∨ ev.type = "FORCE_TERMINATE_FINISHING_JOB" then
      setJobState db env.now j.id "Error"
    else db) := by
    split
    · exact micro_ended _ _ _ (Or.inl rfl)
    split
    · exact micro_ended _ _ _ (Or.inr rfl)
    · exact .refl db
  refine .trans h1 ?_
  generalize (if ev.type = "SWITCH_INTO_TERMINATE_STATE" then setJobState db env.now j.id "Terminated"
    else if ev.type = "SWITCH_INTO_ERROR_STATE" ∨ ev.type = "FORCE_TERMINATE_FINISHING_JOB" then
      setJobState db env.now j.id "Error"
    else db) = d1
  have h2 : Micro env.now d1 (if ev.type ∈ errorTypes ∧ (j.reservation = "None" ∨ ev.type = "RESERVATION_NO_NODE" ∨ j.assigned = 0 ∨
      (ev.type ≠ "PING_CHECKER_NODE_SUSPECTED" ∧ ev.type ≠ "CPUSET_ERROR")) then setJobState d1 env.now j.id "Error"
    else d1) := by
    split
    · exact micro_ended _ _ _ (Or.inr rfl)
    · exact .refl _
  refine .trans h2 ?_
  generalize (if ev.type ∈ errorTypes ∧ (j.reservation = "None" ∨ ev.type = "RESERVATION_NO_NODE" ∨ j.assigned = 0 ∨
      (ev.type ≠ "PING_CHECKER_NODE_SUSPECTED" ∧ ev.type ≠ "CPUSET_ERROR")) then setJobState d1 env.now j.id "Error"
    else d1) = d2
  split
  · exact micro_ended _ _ _ (Or.inl rfl)
  · exact .refl _

theorem micro_ncs3 (env : Env) (db : DB) (ev : Event) (j : JobRow) : Micro env.now db (ncs3 env db ev j) := by
  unfold ncs3
  dsimp only
  have h1 : Micro env.now db (if ev.type ∈ stopTypes then setJobState db env.now j.id "Error" else db) := by
    split
    · exact micro_ended _ _ _ (Or.inr rfl)
    · exact .refl _
  refine .trans h1 ?_
  generalize (if ev.type ∈ stopTypes then setJobState db env.now j.id "Error" else db) = d1
  split
  · rename_i hc
    exact .trans (micro_resubmit _ _ _ (Or.inr (resubmitted_false hc.2.2.2))) (micro_addEvent _ _ _ _)
  · exact .refl _

/-- The hold and resume requests are treated by the last part alone. -/
theorem ncs_hold_pre (env : Env) (db : DB) (ev : Event) (j : JobRow)
    (h : ev.type = "HOLD_WAITING_JOB" ∨ ev.type = "HOLD_RUNNING_JOB" ∨ ev.type = "RESUME_JOB") :
    ncs2 env (ncs1 env db ev j) ev j = db ∧ suspectHosts env ev j = some ([], false, false) ∧ ∀ d, ncs3 env d ev j = d := by
  have t1 : ev.type ∉ errorTypes := by rcases h with h | h | h <;> rw [h] <;> decide
  have t2 : ev.type ∉ suspectTypes := by rcases h with h | h | h <;> rw [h] <;> decide
  have t3 : ev.type ∉ stopTypes := by rcases h with h | h | h <;> rw [h] <;> decide
  have t4 : ev.type ∉ resubmitTypes := by rcases h with h | h | h <;> rw [h] <;> decide
  have t5 : ev.type ≠ "SWITCH_INTO_TERMINATE_STATE" := by rcases h with h | h | h <;> rw [h] <;> decide
  have t6 : ev.type ≠ "SWITCH_INTO_ERROR_STATE" := by rcases h with h | h | h <;> rw [h] <;> decide
  have t7 : ev.type ≠ "FORCE_TERMINATE_FINISHING_JOB" := by rcases h with h | h | h <;> rw [h] <;> decide
  have t8 : ev.type ≠ "CPUSET_CLEAN_ERROR" := by rcases h with h | h | h <;> rw [h] <;> decide
  have t9 : ev.type ≠ "EPILOGUE_ERROR" := by rcases h with h | h | h <;> rw [h] <;> decide
  refine ⟨?_, ?_, ?_⟩
  · unfold ncs2 ncs1 idempotent99
    simp [t1, t5, t6, t7, t8, t9]
  · unfold suspectHosts
    simp [t2]
  · intro d
    unfold ncs3
    simp [t3, t4]

theorem micro_suspendJob {env : Env} {db : DB} (h : Inv env.now db) {j : JobRow} (hj : db.job? j.id = some j)
    (hst : j.state = "Running") : Micro env.now db (suspendJob env db j) := by
  obtain ⟨hjm, _⟩ := job?_some hj
  have hrun : ∀ k ∈ db.jobs, k.id = j.id → k.state = "Running" := by
    intro k hk e
    rw [inj_of_sorted h.ids k hk j hjm e]; exact hst
  have hact : Micro env.now db (suspendAction db env.now j.id) := by
    unfold suspendAction
    refine .trans (.state db j.id "Suspended" (by decide) ?_) (micro_updJob _ _ _ _ (fun _ => rfl))
    intro k hk e hf
    rw [hrun k hk e] at hf
    exact absurd hf (by decide)
  unfold suspendJob
  cases env.suspend with
  | noCpuset => exact .refl db
  | noNodes => exact .refl db
  | badFile => exact micro_addEvent _ _ _ _
  | done => exact hact
  | scriptError =>
    refine .trans hact (.trans (micro_addEvent _ _ "SUSPEND_SCRIPT_ERROR" j.id) (.state _ j.id "Resuming" (by decide) ?_))
    intro k hk e hf
    exfalso
    have hk' : k ∈ (suspendAction db env.now j.id).jobs := hk
    unfold suspendAction at hk'
    obtain ⟨i, hi, hc⟩ := mem_updJob hk'
    have hi' : i.id = j.id ∧ i.state = "Finishing" := by
      rcases hc with ⟨h1, rfl⟩ | ⟨h1, rfl⟩
      · exact ⟨h1, hf⟩
      · exact ⟨e, hf⟩
    rcases setJobState_state (st := "Suspended") (now := env.now) hj (by rw [hst]; decide) i hi hi'.1 with g | ⟨x, hx, hx1, hx2⟩
    · rw [g] at hi'; exact absurd hi'.2 (by decide)
    · exact hx2 (inj_of_sorted h.ids x hx j hjm hx1)
  | badNodes hosts => exact .trans (micro_addEventHosts _ _ _ _ _) (micro_fragJob _ _ _ _)

theorem micro_checkEvent (now : Int) (db : DB) (ty : String) (jid : Nat) : Micro now db (checkEvent db ty jid) := .frame rfl rfl

theorem micro_ncs4 {env : Env} {db db' : DB} (hi : Inv env.now db) {ev : Event} {j : JobRow} (hj : db.job? j.id = some j)
    (h : ncs4 env db ev j = some db') : Micro env.now db db' := by
  obtain ⟨hjm, _⟩ := job?_some hj
  have hguard : ∀ (st s : String), st ∈ allStates → j.state = s → s ≠ "Finishing" → Micro env.now db (setJobState db env.now j.id st) := by
    intro st s hst hs hne
    refine .state db j.id st hst ?_
    intro k hk e hf
    rw [inj_of_sorted hi.ids k hk j hjm e, hs] at hf
    exact absurd hf hne
  unfold ncs4 at h
  split at h
  · split at h
    · rename_i hc
      rw [← Option.some.inj h]
      exact hguard _ _ (by decide) hc.2 (by decide)
    split at h
    · rename_i hc
      rw [← Option.some.inj h]
      exact hguard _ _ (by decide) hc.2 (by decide)
    split at h
    · rename_i hc
      split at h
      · exact absurd h (by simp)
      · rw [← Option.some.inj h]
        exact micro_suspendJob hi hj hc.2
    split at h
    · rename_i hc
      rw [← Option.some.inj h]
      exact hguard _ _ (by decide) hc.2 (by decide)
    split at h
    · rename_i hc
      rw [← Option.some.inj h]
      exact hguard _ _ (by decide) hc.2 (by decide)
    · rw [← Option.some.inj h]; exact .refl db
  · rw [← Option.some.inj h]; exact .refl db

theorem micro_ncsEvent {env : Env} {db db' : DB} (hi : Inv env.now db) {ev : Event} {hs : List (String × Bool)}
    (h : ncsEvent env db ev = some (db', hs)) : Micro env.now db db' := by
  unfold ncsEvent at h
  cases hj : db.job? ev.jid with
  | none =>
    rw [hj] at h
    dsimp only at h
    split at h
    · exact absurd h (by simp)
    · rw [← (Prod.mk.inj (Option.some.inj h)).1]
      exact micro_checkEvent _ _ _ _
  | some j =>
    rw [hj] at h
    dsimp only at h
    have hjid := (job?_some hj).2
    by_cases hh : ev.type = "HOLD_WAITING_JOB" ∨ ev.type = "HOLD_RUNNING_JOB" ∨ ev.type = "RESUME_JOB"
    · obtain ⟨p1, p2, p3⟩ := ncs_hold_pre env db ev j hh
      rw [p2] at h
      dsimp only at h
      rw [if_neg (by decide), p3, p1] at h
      cases h4 : ncs4 env db ev j with
      | none => rw [h4] at h; exact absurd h (by simp)
      | some d4 =>
        rw [h4] at h
        dsimp only at h
        rw [← (Prod.mk.inj (Option.some.inj h)).1]
        refine .trans (micro_ncs4 hi ?_ h4) (micro_checkEvent _ _ _ _)
        rw [hjid]; exact hj
    · cases hsu : suspectHosts env ev j with
      | none => rw [hsu] at h; exact absurd h (by simp)
      | some v =>
        obtain ⟨hosts, finaud, logged⟩ := v
        rw [hsu] at h
        dsimp only at h
        unfold ncs4 at h
        rw [if_neg hh] at h
        dsimp only at h
        rw [← (Prod.mk.inj (Option.some.inj h)).1]
        refine .trans (.trans (.trans (.trans (micro_ncs1 env db ev j) (micro_ncs2 env _ ev j)) ?_) (micro_ncs3 env _ ev j))
          (micro_checkEvent _ _ _ _)
        split
        · exact micro_addEventHosts _ _ _ _ _
        · exact .refl _

theorem micro_ncsLoop {env : Env} (hpos : 0 < env.now) : ∀ (evs : List Event) {db db' : DB} {hs : List (String × Bool)},
    Inv env.now db → ncsLoop env evs db = some (db', hs) → Micro env.now db db'
  | [], db, db', hs, _, h => by
    unfold ncsLoop at h
    rw [← (Prod.mk.inj (Option.some.inj h)).1]; exact .refl db
  | ev :: evs, db, db', hs, hi, h => by
    unfold ncsLoop at h
    cases he : ncsEvent env db ev with
    | none => rw [he] at h; exact absurd h (by simp)
    | some v =>
      obtain ⟨d1, h1⟩ := v
      rw [he] at h
      dsimp only at h
      have m1 := micro_ncsEvent hi he
      cases hl : ncsLoop env evs d1 with
      | none => rw [hl] at h; exact absurd h (by simp)
      | some v2 =>
        obtain ⟨d2, h2⟩ := v2
        rw [hl] at h
        dsimp only at h
        rw [← (Prod.mk.inj (Option.some.inj h)).1]
        exact .trans m1 (micro_ncsLoop hpos evs (m1.inv hpos hi) hl)

/-- Each step of a history is a sequence of elementary actions. -/
theorem Step.micro {now : Int} {db db' : DB} (hpos : 0 < now) (hi : Inv now db) (h : Step now db db') : Micro now db db' := by
  cases h with
  | submit j hid hres hst => exact .new j hst hid (Or.inl hres) rfl rfl
  | setState jid st hst hg => exact .state db jid st hst hg
  | columns jid f hf =>
    exact micro_updJob now db jid f (fun j => by obtain ⟨h1, h2, h3⟩ := hf j; simp [JobRow.key, h1, h2, h3])
  | frag jid user => exact micro_fragJob now db jid user
  | hold al jid r u => exact micro_holdJob now db al jid r u
  | resume al jid u => exact micro_resumeJob now db al jid u
  | checkpoint jid s u => exact micro_askCheckpoint now db jid s u
  | leon w => exact micro_leonRun w now db
  | exterminate w jid => exact micro_leonExterminate w now db jid
  | sarko w s wl => exact micro_sarkoRun w s wl now db
  | jobEnd kc extra jid exit error => exact micro_checkEnd hi kc extra jid exit error
  | event ty jid hosts => exact .frame rfl rfl
  | events _ env hs hnow h =>
    subst hnow
    exact micro_ncsLoop hpos _ hi h

theorem History.pos {t : Int} {db : DB} (h : History t db) : 0 < t := by
  induction h with
  | start t h => exact h
  | step t now db db' h hle hs ih => omega

theorem History.inv {t : Int} {db : DB} (h : History t db) : Inv t db := by
  induction h with
  | start t h => exact ⟨by simp, by simp, by simp, by simp, by simp, by simp⟩
  | step t now db db' h hle hs ih =>
    have hpos : 0 < now := by have := h.pos; omega
    exact (hs.micro hpos (ih.mono hle)).inv hpos (ih.mono hle)

end Oar.Jobs
