import Verif.BipbipHist

/-!
# The launches: concrete cases, disagreements with the expected behaviour
-/

namespace Oar.Bipbip

open Oar.Jobs

/-- The job of the examples is to be launched. -/
def exDbL : DB := setJobState exDb0 12 1 "toLaunch"

/-- The same, for an advance reservation. -/
def exDbR : DB := setJobState (submit ⟨[], [], [], [], []⟩ 10 { exJob with reservation := "toSchedule" }) 12 1 "toLaunch"

/-- The same, for an interactive job. -/
def exDbI : DB := setJobState (submit ⟨[], [], [], [], []⟩ 10 { exJob with jtype := "INTERACTIVE" }) 12 1 "toLaunch"

theorem toLaunch_history (j : JobRow) (h1 : j.resubmit = 0) (h2 : j.state = "Waiting") :
    History 12 (setJobState (submit ⟨[], [], [], [], []⟩ 10 j) 12 1 "toLaunch") := by
  have h0 : History 10 (submit ⟨[], [], [], [], []⟩ 10 j) :=
    .step 10 10 _ _ (.start 10 (by decide)) (by decide) (.submit _ j (by simp) h1 (by rw [h2]; decide))
  refine .step 10 12 _ _ h0 (by decide) (.setState _ 1 "toLaunch" (by decide) ?_)
  intro k hk _ hf
  have : k = j := by simpa [submit] using hk
  rw [this, h2] at hf
  exact absurd hf (by decide)

theorem exDbL_history : History 12 exDbL := toLaunch_history exJob rfl rfl
theorem exDbR_history : History 12 exDbR := toLaunch_history _ rfl rfl
theorem exDbI_history : History 12 exDbI := toLaunch_history _ rfl rfl

/-- Nothing special at the end. -/
def exEnd : EndWorld := ⟨.notSet, ["n1", "n2"], (true, []), false, ["n1", "n2"], (true, [])⟩

/-- A launch on two nodes with a cpuset, where everything goes well. -/
def exW : World :=
  { challenge := "c", hosts := ["n1", "n2"], cpusetNodes := ["n1", "n2"], init := (true, []), clean := (true, []), ping := (true, []),
    prologue1 := .notSet, prologue2 := .notSet, oarexec := true, notified := true, cosystemHost := "front", deployHost := "front",
    atEnd := exEnd, now1 := 13, now2 := 14, keyClash := false, env := fun _ d => d }

/-- The launch that goes well: cpusets, pings, oarexec on the first node; the job is Running. -/
example : (run exW exDbL 1 {}).acts = [.init ["n1", "n2"], .ping ["n1", "n2"], .oarexec "n1"] ∧
    (run exW exDbL 1 {}).db.stateOf 1 = some "Running" ∧ (run exW exDbL 1 {}).raised = false := by decide

/-- A silent node stops the launch of a job that is not a reservation: the hypotheses of `failed_launch_reported_partial` and
of `failed_launch_ends_partial` hold, and the job ends in Error. -/
example : (run { exW with ping := (true, ["n2"]) } exDbL 1 {}).acts = [.init ["n1", "n2"], .ping ["n1", "n2"]] ∧
    (run { exW with ping := (true, ["n2"]) } exDbL 1 {}).db.stateOf 1 = some "Launching" ∧
    (run { exW with ping := (true, ["n2"]) } exDbL 1 {}).raised = false ∧
    (run { exW with ping := (true, ["n2"]) } exDbL 1 {}).db.events = [⟨"PING_CHECKER_NODE_SUSPECTED", 1, true, ["n2"]⟩] ∧
    ((ncsEvents exEnv (run { exW with ping := (true, ["n2"]) } exDbL 1 {}).db).map (fun v => v.1.stateOf 1)) = some (some "Error") := by
  decide

/-- A failed start of oarexec: the job is Finishing with its event, then in Error. -/
example : (run { exW with oarexec := false } exDbL 1 {}).db.stateOf 1 = some "Finishing" ∧
    (run { exW with oarexec := false } exDbL 1 {}).raised = false ∧
    (run { exW with oarexec := false } exDbL 1 {}).db.events.map Event.type = ["LAUNCHING_OAREXEC_TIMEOUT"] ∧
    ((ncsEvents exEnv (run { exW with oarexec := false } exDbL 1 {}).db).map (fun v => v.1.stateOf 1)) = some (some "Error") := by
  decide

/-- The end of the execution with the right challenge, and with a wrong one. -/
example : (run exW exDb1 1 ⟨some (some 0), some (some 0), some "c"⟩).db.stateOf 1 = some "Finishing" ∧
    (run exW exDb1 1 ⟨some (some 0), some (some 0), some "x"⟩).db.stateOf 1 = some "Running" := by decide

/-! ## Disagreements -/

/-- One would expect that a job is started on a node that answers. For a reservation, the ping suspects the first node, the
event is registered, but the hosts are not filtered: oarexec is started on the node that does not answer (the filtered list is
only tested, oar/modules/bipbip.py:367-378). -/
theorem dead_head_violated : History 12 exDbR ∧
    Act.oarexec "n1" ∈ (run { exW with ping := (true, ["n1"]) } exDbR 1 {}).acts ∧
    (run { exW with ping := (true, ["n1"]) } exDbR 1 {}).db.events = [⟨"PING_CHECKER_NODE_SUSPECTED", 1, true, ["n1"]⟩] :=
  ⟨exDbR_history, by decide, by decide⟩

/-- One would expect that a failed launch leaves an event, so that the job ends. When no node of a reservation answers,
`add_new_event` is called without the session: the exception leaves the job in state Launching without any event. -/
theorem reservation_forgotten_violated : History 12 exDbR ∧
    (run { exW with ping := (true, ["n1", "n2"]) } exDbR 1 {}).raised = true ∧
    (run { exW with ping := (true, ["n1", "n2"]) } exDbR 1 {}).db.stateOf 1 = some "Launching" ∧
    (run { exW with ping := (true, ["n1", "n2"]) } exDbR 1 {}).db.events = [] :=
  ⟨exDbR_history, by decide, by decide, by decide⟩

/-- Likewise when the job has no host (only resources that are not of type default) and oarexec cannot be started: the event
would name `hosts[0]`; the exception leaves the job in state Finishing without any event. -/
theorem no_host_forgotten_violated : History 12 exDbL ∧
    (run { exW with hosts := [], cpusetNodes := [], oarexec := false } exDbL 1 {}).raised = true ∧
    (run { exW with hosts := [], cpusetNodes := [], oarexec := false } exDbL 1 {}).db.stateOf 1 = some "Finishing" ∧
    (run { exW with hosts := [], cpusetNodes := [], oarexec := false } exDbL 1 {}).db.events = [] :=
  ⟨exDbL_history, by decide, by decide, by decide⟩

/-- One would expect that a job whose server prologue fails is not started: the value returned by `call_server_prologue` is not
looked at, the event is registered and oarexec is started. -/
theorem prologue_failure_launched_violated : History 12 exDbL ∧
    Act.oarexec "n1" ∈ (run { exW with prologue1 := .failed, prologue2 := .failed } exDbL 1 {}).acts ∧
    (run { exW with prologue1 := .failed, prologue2 := .failed } exDbL 1 {}).db.stateOf 1 = some "Running" ∧
    (run { exW with prologue1 := .failed, prologue2 := .failed } exDbL 1 {}).db.events.map Event.type =
      ["SERVER_PROLOGUE_EXIT_CODE_ERROR", "SERVER_PROLOGUE_EXIT_CODE_ERROR"] :=
  ⟨exDbL_history, by decide, by decide, by decide⟩

/-- One would expect that the server prologue is run once for each launch; it is run twice (oar/modules/bipbip.py:398 and 525-528). -/
theorem prologue_twice_violated : History 12 exDbL ∧
    ((run { exW with prologue1 := .ok, prologue2 := .ok } exDbL 1 {}).acts.filter (fun x => x = Act.prologue)).length = 2 :=
  ⟨exDbL_history, by decide⟩

/-- One would expect that a job is started only after its cpusets are created: when the command of the creation cannot be run
or does not end in time (tag 0), the event is registered, and the job is started all the same if the nodes answer. -/
theorem cpuset_unknown_launched_violated : History 12 exDbL ∧
    Act.oarexec "n1" ∈ (run { exW with init := (false, []) } exDbL 1 {}).acts ∧
    (run { exW with init := (false, []) } exDbL 1 {}).db.stateOf 1 = some "Running" ∧
    (run { exW with init := (false, []) } exDbL 1 {}).db.events.map Event.type = ["CPUSET_MANAGER_FILE"] :=
  ⟨exDbL_history, by decide, by decide, by decide⟩

/-- Between the two runs of the prologue, node_change_state may treat the event of the first one. -/
def exBetween (i : Nat) (d : DB) : DB := if i = 3 then ((ncsEvents exEnv d).map Prod.fst).getD d else d

/-- One would expect that nothing is started for an ended job. The event of the failed prologue is treated during the launch:
the job is in Error, and oarexec is started nevertheless, since the state is not looked at again. -/
theorem launched_after_end_violated : History 12 exDbL ∧
    ((run { exW with prologue1 := .failed, env := exBetween } exDbL 1 {}).db.stateOf 1 = some "Error") ∧
    Act.oarexec "n1" ∈ (run { exW with prologue1 := .failed, env := exBetween } exDbL 1 {}).acts :=
  ⟨exDbL_history, by decide, by decide⟩

/-- One would expect that a message of the end of an execution never starts a job. For a job in state toLaunch it is treated
as an order to launch it, whatever the challenge is (the test of the first branch includes the state,
oar/modules/bipbip.py:110-116). -/
theorem wrong_challenge_launches_violated : History 12 exDbL ∧
    Act.oarexec "n1" ∈ (run exW exDbL 1 ⟨some (some 0), some (some 0), some "wrong"⟩).acts :=
  ⟨exDbL_history, by decide⟩

/-- One would expect that all the problems of the end of an execution are reported. When the server epilogue fails, its event
has `None` as hosts: the registration raises, so that neither the failure of the epilogue nor the nodes whose cpuset could
not be cleaned are reported. -/
theorem epilogue_failure_lost_violated : History 12 exDb1 ∧
    (run { exW with atEnd := { exEnd with epilogue := .failed, clean := (true, ["n2"]) } } exDb1 1
      ⟨some (some 0), some (some 0), some "c"⟩).raised = true ∧
    (run { exW with atEnd := { exEnd with epilogue := .failed, clean := (true, ["n2"]) } } exDb1 1
      ⟨some (some 0), some (some 0), some "c"⟩).db.events.map Event.type = ["SWITCH_INTO_TERMINATE_STATE"] ∧
    (run { exW with atEnd := { exEnd with epilogue := .notSet, clean := (true, ["n2"]) } } exDb1 1
      ⟨some (some 0), some (some 0), some "c"⟩).db.events.map Event.type = ["SWITCH_INTO_TERMINATE_STATE", "CPUSET_CLEAN_ERROR"] :=
  ⟨exDb1_history, by decide, by decide, by decide⟩

/-- One would expect that an interactive job whose user cannot be reached is deleted: Leon is woken up, but no deletion is
registered, so that the job goes on. -/
theorem user_lost_violated : History 12 exDbI ∧ Act.callLeon ∈ (run { exW with notified := false } exDbI 1 {}).acts ∧
    (run { exW with notified := false } exDbI 1 {}).db.frags = [] ∧
    (run { exW with notified := false } exDbI 1 {}).db.stateOf 1 = some "Running" :=
  ⟨exDbI_history, by decide, by decide, by decide⟩

end Oar.Bipbip
