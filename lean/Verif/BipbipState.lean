import Verif.BipbipProps

/-!
# What a launch and an end of execution leave in the database
-/

namespace Oar.Bipbip

open Oar.Jobs

/-! ## The registration of the events -/

/-- The events registered before the first one that raises. -/
def registered (jid : Nat) : List (String × HostArg) → List Event
  | [] => []
  | (ty, .pair) :: l => ⟨ty, jid, true, []⟩ :: registered jid l
  | (ty, .hosts hs) :: l => ⟨ty, jid, true, hs.eraseDups⟩ :: registered jid l
  | (_, .nothing) :: _ => []

theorem register_eq (jid : Nat) : ∀ (l : List (String × HostArg)) (db : DB),
    (register jid l db).1 = { db with events := db.events ++ registered jid l }
  | [], db => by simp [register, registered]
  | (ty, .pair) :: l, db => by
    rw [register, register_eq jid l]
    simp [registered, addEvent]
  | (ty, .hosts hs) :: l, db => by
    rw [register, register_eq jid l]
    simp [registered, addEventHosts]
  | (ty, .nothing) :: l, db => by simp [register, registered]

theorem register_raises (jid : Nat) : ∀ (l : List (String × HostArg)) (db : DB),
    (register jid l db).2 = true ↔ ∃ ty, (ty, HostArg.nothing) ∈ l
  | [], db => by simp [register]
  | (ty, .pair) :: l, db => by
    rw [register, register_raises jid l]
    simp
  | (ty, .hosts hs) :: l, db => by
    rw [register, register_raises jid l]
    simp
  | (ty, .nothing) :: l, db => by
    simp only [register, true_iff]
    exact ⟨ty, by simp⟩

theorem registered_pairs (jid : Nat) (evs : List String) (l : List (String × HostArg)) :
    registered jid (evs.map (fun e => (e, HostArg.pair)) ++ l) =
      evs.map (fun e => (⟨e, jid, true, []⟩ : Event)) ++ registered jid l := by
  induction evs with
  | nil => rfl
  | cons e es ih => simp [registered, ih]

theorem job?_events (db : DB) (evs : List Event) (i : Nat) : ({ db with events := evs } : DB).job? i = db.job? i := rfl

theorem stateOf_events (db : DB) (evs : List Event) (i : Nat) : ({ db with events := evs } : DB).stateOf i = db.stateOf i := rfl

/-- The finishing sequence only adds events: those given, then those of the epilogue, of the cleaning and of the pings. -/
theorem finishSeq_eq (w : EndWorld) (db : DB) (jid : Nat) (types : List String) (evs : List String) :
    (finishSeq w db jid types evs).1 = { db with events := db.events ++ (evs.map (fun e => (⟨e, jid, true, []⟩ : Event)) ++
      registered jid (epilogueEvents w.epilogue ++ cleanEvents w types ++ pingEvents w types)) } := by
  unfold finishSeq
  rw [register_eq, List.append_assoc, List.append_assoc, registered_pairs, List.append_assoc]

/-- It raises exactly when the server epilogue fails. -/
theorem finishSeq_raises (w : EndWorld) (db : DB) (jid : Nat) (types : List String) (evs : List String) :
    (finishSeq w db jid types evs).2 = true ↔ w.epilogue = .failed ∨ w.epilogue = .timeout := by
  unfold finishSeq
  rw [register_raises]
  have hc : ∀ ty, (ty, HostArg.nothing) ∉ cleanEvents w types := by
    intro ty
    unfold cleanEvents
    repeat' split
    all_goals simp
  have hp : ∀ ty, (ty, HostArg.nothing) ∉ pingEvents w types := by
    intro ty
    unfold pingEvents
    repeat' split
    all_goals simp
  constructor
  · rintro ⟨ty, h⟩
    simp only [List.mem_append, List.mem_map, Prod.mk.injEq, reduceCtorEq, and_false, exists_false, false_or] at h
    rcases h with (h | h) | h
    · cases he : w.epilogue <;> rw [he] at h <;> simp [epilogueEvents] at h ⊢
    · exact absurd h (hc ty)
    · exact absurd h (hp ty)
  · rintro (h | h) <;> rw [h]
    · exact ⟨"SERVER_EPILOGUE_EXIT_CODE_ERROR", by simp [epilogueEvents]⟩
    · exact ⟨"SERVER_EPILOGUE_TIMEOUT", by simp [epilogueEvents]⟩

/-! ## The end of an execution -/

/-- The states of a job under execution. -/
def Executing (st : String) : Prop := st = "Running" ∨ st = "Launching" ∨ st = "Suspended" ∨ st = "Resuming"

theorem Executing.alive {st : String} (h : Executing st) : st ∈ aliveStates := by
  rcases h with h | h | h | h <;> rw [h] <;> decide

theorem Executing.not_done {st : String} (h : Executing st) : st ≠ "Finishing" ∧ ¬ Ended st := by
  unfold Ended
  rcases h with h | h | h | h <;> rw [h] <;> decide

theorem job?_setJobState {db : DB} {jid : Nat} {j : JobRow} (hj : db.job? jid = some j) (hal : j.state ∈ aliveStates) (now : Int)
    {st : String} (hne : j.state ≠ st) : (setJobState db now jid st).job? jid = some (withState st j) := by
  have : (setJobState db now jid st).jobs = (db.updJob jid (withState st)).jobs := by
    unfold setJobState
    rw [hj]
    dsimp only
    rw [if_pos (by unfold mayBecome; simp; exact (List.mem_erase_of_ne hne).2 hal)]
  have h2 : (setJobState db now jid st).job? jid = (db.updJob jid (withState st)).job? jid := by
    unfold DB.job?
    rw [this]
  rw [h2, job?_updJob_same (withState st) (withState_id st), hj]
  rfl

/-- The row of a job whose execution ended at `now` with the exit value `exit` of its script. -/
def endedRow (j : JobRow) (now : Int) (exit : Option Int) : JobRow :=
  { j with state := "Finishing", stop := if now < j.start then j.start else now, exitCode := match exit with
    | some c => some c
    | none => j.exitCode }

/-- `endMarks` puts the job in state Finishing, with its stop date and its exit value. -/
theorem endMarks_job {db : DB} {jid : Nat} {j : JobRow} (hj : db.job? jid = some j) (he : Executing j.state) (now : Int)
    (exit : Option Int) : (endMarks db now jid exit).job? jid = some (endedRow j now exit) := by
  have h1 : (setFinish db now jid).job? jid = some { j with stop := if now < j.start then j.start else now } := by
    unfold setFinish
    rw [job?_updJob_same (fun j => { j with stop := if now < j.start then j.start else now }) (fun _ => rfl), hj]
    rfl
  have h2 := job?_setJobState h1 (show j.state ∈ aliveStates from he.alive) now (st := "Finishing") he.not_done.1
  unfold endMarks
  cases exit with
  | none =>
    dsimp only
    rw [h2]
    rfl
  | some c =>
    dsimp only
    rw [job?_updJob_same (fun j => { j with exitCode := some c }) (fun _ => rfl), h2]
    rfl

theorem endMarks_events (db : DB) (now : Int) (jid : Nat) (exit : Option Int) : (endMarks db now jid exit).events = db.events := by
  have h : ∀ d : DB, (setJobState d now jid "Finishing").events = d.events := by
    intro d
    rcases setJobState_cases d now jid "Finishing" with e | ⟨_, _, _, _, e⟩ <;> rw [e]
    rfl
  unfold endMarks
  cases exit with
  | none => exact h _
  | some c => exact h _

theorem endResubmit_job {db : DB} {now : Int} {kc : Bool} {j k : JobRow} {error : Int} {i : Nat} (h : db.job? i = some k) :
    (endResubmit db now kc j error).1.job? i = some k := by
  unfold endResubmit
  split
  · exact job?_resubmit h
  · exact h

theorem endResubmit_events (db : DB) (now : Int) (kc : Bool) (j : JobRow) (error : Int) :
    (endResubmit db now kc j error).1.events = db.events := by
  unfold endResubmit
  split
  · dsimp only
    unfold resubmitJob
    repeat' split
    all_goals rfl
  · rfl

theorem endResubmit_evs (db : DB) (now : Int) (kc : Bool) (j : JobRow) (error : Int) :
    ∀ e ∈ endEvents error, e ∈ (endResubmit db now kc j error).2 := by
  intro e he
  unfold endResubmit
  split
  · exact List.mem_append_left _ he
  · exact he

/-- The end of the execution of a job under execution: it is Finishing, with its stop date and exit value. -/
theorem endOfJob_job {w : EndWorld} {db : DB} {now : Int} {kc : Bool} {jid : Nat} {exit : Option Int} {error : Int}
    {hosts : List String} {j : JobRow} (hj : db.job? jid = some j) (he : Executing j.state) :
    (endOfJob w db now kc jid exit error hosts).1.job? jid = some (endedRow j now exit) := by
  unfold endOfJob
  rw [hj]
  dsimp only
  rw [if_pos (show _ ∨ _ from he)]
  split
  · exact endMarks_job hj he now exit
  · rw [finishSeq_eq]
    exact endResubmit_job (endMarks_job hj he now exit)

/-- A job that is not under execution is not changed. -/
theorem endOfJob_not {w : EndWorld} {db : DB} {now : Int} {kc : Bool} {jid : Nat} {exit : Option Int} {error : Int}
    {hosts : List String} {j : JobRow} (hj : db.job? jid = some j) (he : ¬ Executing j.state) :
    endOfJob w db now kc jid exit error hosts = (db, false) := by
  unfold endOfJob
  rw [hj]
  dsimp only
  rw [if_neg (show ¬ (_ ∨ _) from he)]

/-- The events of the end of an execution are registered, to be checked, when the job has a host or the exit value does not
name it; whatever happens then in the finishing sequence. -/
theorem endOfJob_events {w : EndWorld} {db : DB} {now : Int} {kc : Bool} {jid : Nat} {exit : Option Int} {error : Int}
    {hosts : List String} {j : JobRow} (hj : db.job? jid = some j) (he : Executing j.state)
    (hh : namesHost error = false ∨ hosts ≠ []) :
    ∀ ty ∈ endEvents error, (⟨ty, jid, true, []⟩ : Event) ∈ (endOfJob w db now kc jid exit error hosts).1.events := by
  intro ty hty
  unfold endOfJob
  rw [hj]
  dsimp only
  rw [if_pos (show _ ∨ _ from he), if_neg (by
    rintro ⟨h1, h2⟩
    rcases hh with h | h
    · rw [h] at h1; exact absurd h1 (by simp)
    · exact h h2), finishSeq_eq]
  refine List.mem_append_right _ (List.mem_append_left _ (List.mem_map.2 ⟨ty, ?_, rfl⟩))
  exact endResubmit_evs _ _ _ _ _ ty hty

/-- The exceptions of the end of an execution: no host to name, or a failure of the server epilogue. -/
theorem endOfJob_raises {w : EndWorld} {db : DB} {now : Int} {kc : Bool} {jid : Nat} {exit : Option Int} {error : Int}
    {hosts : List String} {j : JobRow} (hj : db.job? jid = some j) (he : Executing j.state) :
    (endOfJob w db now kc jid exit error hosts).2 = true ↔
      (namesHost error = true ∧ hosts = []) ∨ w.epilogue = .failed ∨ w.epilogue = .timeout := by
  unfold endOfJob
  rw [hj]
  dsimp only
  rw [if_pos (show _ ∨ _ from he)]
  split
  · rename_i h; simp [h]
  · rename_i h
    rw [finishSeq_raises]
    constructor
    · exact Or.inr
    · rintro (h' | h')
      · exact absurd h' h
      · exact h'

/-- The other jobs are not changed by the end of an execution. -/
theorem endOfJob_others {w : EndWorld} {db : DB} {now : Int} {kc : Bool} {jid i : Nat} {exit : Option Int} {error : Int}
    {hosts : List String} (hi : jid ≠ i) {k : JobRow} (hk : db.job? i = some k) :
    (endOfJob w db now kc jid exit error hosts).1.job? i = some k := by
  have hm : (endMarks db now jid exit).job? i = some k := by
    unfold endMarks
    have h1 : (setJobState (setFinish db now jid) now jid "Finishing").job? i = some k := by
      rw [job?_setJobState_other hi]
      unfold setFinish
      rw [job?_updJob_other hi (fun j => { j with stop := if now < j.start then j.start else now }) (fun _ => rfl)]
      exact hk
    cases exit with
    | none => exact h1
    | some c =>
      dsimp only
      rw [job?_updJob_other hi (fun j => { j with exitCode := some c }) (fun _ => rfl)]
      exact h1
  unfold endOfJob
  cases db.job? jid with
  | none => exact hk
  | some j =>
    dsimp only
    split
    · split
      · exact hm
      · rw [finishSeq_eq]
        exact endResubmit_job hm
    · exact hk

/-! ## The state left by a launch -/

theorem judge_job (db : DB) (acts : List Act) (hosts : List String) (j : JobRow) (bad : List String) (ev : String) (i : Nat) :
    (judge db acts hosts j bad ev).db.job? i = db.job? i := by
  unfold judge
  repeat' split
  all_goals rfl

theorem cpusetPart_job (w : World) (db : DB) (j : JobRow) (i : Nat) : (cpusetPart w db j).db.job? i = db.job? i := by
  unfold cpusetPart
  repeat' split
  all_goals rfl

theorem checkNodes_job (w : World) (db : DB) (j : JobRow) (i : Nat) : (checkNodes w db j).db.job? i = db.job? i := by
  unfold checkNodes
  split
  · dsimp only
    split <;> rw [judge_job, cpusetPart_job]
  · rfl

theorem prologueDb_job (r : Script) (db : DB) (jid i : Nat) : (prologueDb r db jid).job? i = db.job? i := by
  unfold prologueDb
  split <;> rfl

/-- The three outcomes of the launch of a job in state toLaunch, when nothing else touches it: Running, after the start of
oarexec succeeded or for a noop job; Finishing, after the start of oarexec failed; still Launching, and then oarexec was not
started. -/
theorem launch_outcome {w : World} (ha : w.Alone) {db : DB} {jid : Nat} {j : JobRow} (h0 : jid ≠ 0) (hj : db.job? jid = some j)
    (hst : j.state = "toLaunch") (a : Args) :
    ((run w db jid a).db.stateOf jid = some "Running" ∧
      ("noop" ∈ j.types ∨ (w.oarexec = true ∧ ∃ n, Act.oarexec n ∈ (run w db jid a).acts))) ∨
    ((run w db jid a).db.stateOf jid = some "Finishing" ∧ w.oarexec = false ∧ ∃ n, Act.oarexec n ∈ (run w db jid a).acts) ∨
    ((run w db jid a).db.stateOf jid = some "Launching" ∧ ∀ n, Act.oarexec n ∉ (run w db jid a).acts) := by
  have hid : j.id = jid := (job?_some hj).2
  have hL : (setJobState db w.now1 jid "Launching").job? jid = some (withState "Launching" j) :=
    job?_setJobState hj (by rw [hst]; decide) w.now1 (by rw [hst]; decide)
  rcases run_cases w db jid a with ⟨_, h⟩ | ⟨_, _, h⟩ | ⟨j', e', _, h, _, hs, _⟩ | ⟨k, _, hk, _, e⟩
  · rcases h with h | ⟨k, hk, hs, _⟩
    · exact absurd h h0
    · rw [hj] at hk; exact absurd hst ((Option.some.inj hk) ▸ hs)
  · rw [hj] at h; exact absurd h (by simp)
  · rw [hj] at h
    rw [← Option.some.inj h, hst] at hs
    exact absurd hs (by decide)
  rw [hj] at hk
  obtain rfl := Option.some.inj hk
  have hx : ∀ n, Act.oarexec n ∈ (launchJob w db j).acts ↔ Act.oarexec n ∈ (launchJob w db j).acts.filter IsOarexec :=
    fun n => oarexec_filter
  rw [e]
  simp only [hx, launchJob_execs]
  have hc : (checkNodes w (w.env 1 (setJobState db w.now1 j.id "Launching")) j).db.job? jid = some (withState "Launching" j) := by
    rw [checkNodes_job, ha, hid]; exact hL
  unfold launchJob
  dsimp only
  generalize checkNodes w (w.env 1 (setJobState db w.now1 j.id "Launching")) j = c at *
  cases hv : c.verdict with
  | go =>
    dsimp only
    have hd : (w.env 4 (prologueDb w.prologue2 (w.env 3 (prologueDb w.prologue1 (w.env 2 c.db) j.id)) j.id)).job? jid =
        some (withState "Launching" j) := by
      rw [ha, prologueDb_job, ha, prologueDb_job, ha, hc]
    unfold afterChecks
    dsimp only
    generalize w.env 4 (prologueDb w.prologue2 (w.env 3 (prologueDb w.prologue1 (w.env 2 c.db) j.id)) j.id) = d at *
    unfold launch DB.stateOf
    have hR : (setJobState d w.now2 j.id "Running").job? jid = some (withState "Running" (withState "Launching" j)) := by
      rw [hid]
      exact job?_setJobState hd (show "Launching" ∈ aliveStates by decide) _ (show "Launching" ≠ "Running" by decide)
    by_cases hn : "noop" ∈ j.types
    · refine Or.inl ⟨?_, Or.inl hn⟩
      rw [if_pos hn]
      dsimp only
      rw [hR]
      rfl
    · rw [if_neg hn]
      have hm : Act.oarexec (headNode w j c.hosts) ∈
          (if Verdict.go = Verdict.go ∧ "noop" ∉ j.types then [Act.oarexec (headNode w j c.hosts)] else []) := by
        rw [if_pos ⟨rfl, hn⟩]; exact List.mem_singleton.2 rfl
      by_cases ho : w.oarexec = true
      · refine Or.inl ⟨?_, Or.inr ⟨ho, _, hm⟩⟩
        rw [if_pos ho]
        dsimp only
        rw [hR]
        rfl
      · refine Or.inr (Or.inl ⟨?_, by simpa using ho, _, hm⟩)
        rw [if_neg ho]
        dsimp only
        rw [hid, endOfJob_job hd (Or.inr (Or.inl rfl))]
        rfl
  | stop =>
    refine Or.inr (Or.inr ⟨?_, fun n => by simp⟩)
    unfold DB.stateOf
    rw [hc]
    rfl
  | raise =>
    refine Or.inr (Or.inr ⟨?_, fun n => by simp⟩)
    unfold DB.stateOf
    rw [hc]
    rfl

end Oar.Bipbip
