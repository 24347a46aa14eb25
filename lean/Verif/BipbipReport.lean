import Verif.BipbipState

/-!
# Failed launches are reported; histories; disagreements with the expected behaviour
-/

namespace Oar.Bipbip

open Oar.Jobs

/-! ## A failed launch leaves an event -/

theorem eraseDups_ne_nil {l : List String} (h : l ≠ []) : l.eraseDups ≠ [] := by
  cases l with
  | nil => exact absurd rfl h
  | cons x xs => rw [List.eraseDups_cons]; simp

/-- The hosts that do not answer the ping: those given by the command, or all of them when it is too late. -/
def Silent (w : World) (hosts : List String) (h : String) : Prop := (w.ping.1 = false ∧ h ∈ hosts) ∨ (w.ping.1 = true ∧ h ∈ w.ping.2)

/-- The hosts where a cpuset could not be created or cleaned. -/
def NoCpuset (w : World) (h : String) : Prop := h ∈ w.init.2 ∨ h ∈ w.clean.2

theorem judge_stop {db : DB} {acts : List Act} {hosts : List String} {j : JobRow} {bad : List String} {ev : String}
    (h : (judge db acts hosts j bad ev).verdict = .stop) : j.reservation = "None" ∧ bad ≠ [] ∧
      (judge db acts hosts j bad ev).db = addEventHosts db ev j.id bad := by
  unfold judge at h ⊢
  by_cases hb : bad = []
  · rw [if_pos hb] at h; exact absurd h (by simp)
  rw [if_neg hb] at h ⊢
  by_cases hr : j.reservation ≠ "None"
  · rw [if_pos hr] at h
    split at h <;> exact absurd h (by simp)
  · rw [if_neg hr]
    exact ⟨by simpa using hr, hb, rfl⟩

/-- When the checks stop the launch, the job is not a reservation, and an event to be checked names hosts of which each did
not answer or has no cpuset. -/
theorem checkNodes_stop {w : World} {db : DB} {j : JobRow} (h : (checkNodes w db j).verdict = .stop) :
    j.reservation = "None" ∧ ∃ ev ∈ (checkNodes w db j).db.events, ev.jid = j.id ∧ ev.toCheck = true ∧ ev.hosts ≠ [] ∧
      ((ev.type = "PING_CHECKER_NODE_SUSPECTED" ∧ ∀ x, x ∈ ev.hosts ↔ Silent w w.hosts x) ∨
       (ev.type = "CPUSET_ERROR" ∧ (∀ x ∈ ev.hosts, NoCpuset w x) ∧ ∀ x ∈ w.init.2, x ∈ ev.hosts)) := by
  unfold checkNodes at h ⊢
  split at h
  · rename_i ho
    rw [if_pos ho]
    dsimp only at h ⊢
    have hhosts : j.reservation = "None" → (cpusetPart w db j).hosts = w.hosts := by
      intro hr
      unfold cpusetPart
      repeat' split
      all_goals first | rfl | (rename_i hc; exact absurd hr hc)
    by_cases hc : (cpusetPart w db j).bad = []
    · rw [if_pos hc] at h ⊢
      obtain ⟨h1, h2, h3⟩ := judge_stop h
      refine ⟨h1, ⟨"PING_CHECKER_NODE_SUSPECTED", j.id, true, (pingBad w (cpusetPart w db j).hosts).eraseDups⟩, ?_, rfl, rfl,
        eraseDups_ne_nil h2, Or.inl ⟨rfl, ?_⟩⟩
      · rw [h3]
        exact List.mem_append_right _ (List.mem_singleton.2 rfl)
      · intro x
        rw [List.mem_eraseDups, hhosts h1]
        unfold pingBad Silent
        cases hp : w.ping.1
        · simp
        · simp
    · rw [if_neg hc] at h ⊢
      obtain ⟨h1, h2, h3⟩ := judge_stop h
      have hev : (cpusetPart w db j).event = "CPUSET_ERROR" ∧ (∀ x ∈ (cpusetPart w db j).bad, NoCpuset w x) ∧
          ∀ x ∈ w.init.2, x ∈ (cpusetPart w db j).bad := by
        unfold cpusetPart at hc ⊢
        by_cases c1 : w.cpusetNodes = []
        · rw [if_pos c1] at hc; exact absurd rfl hc
        rw [if_neg c1] at hc ⊢
        by_cases c2 : w.init.1 = false
        · rw [if_pos c2] at hc; exact absurd rfl hc
        rw [if_neg c2] at hc ⊢
        by_cases c3 : 0 < w.init.2.length ∧ w.init.2.length < w.cpusetNodes.length
        · rw [if_pos c3] at hc ⊢
          rw [if_neg (by simp [h1])]
          refine ⟨rfl, ?_, fun x hx => List.mem_append_left _ hx⟩
          intro x hx
          exact List.mem_append.1 hx
        · rw [if_neg c3]
          exact ⟨rfl, fun x hx => Or.inl hx, fun x hx => hx⟩
      refine ⟨h1, ⟨(cpusetPart w db j).event, j.id, true, (cpusetPart w db j).bad.eraseDups⟩, ?_, rfl, rfl,
        eraseDups_ne_nil h2, Or.inr ⟨hev.1, ?_, ?_⟩⟩
      · rw [h3]
        exact List.mem_append_right _ (List.mem_singleton.2 rfl)
      · intro x hx
        exact hev.2.1 x (List.mem_eraseDups.1 hx)
      · intro x hx
        exact List.mem_eraseDups.2 (hev.2.2 x hx)
  · exact absurd h (by simp)

theorem run_toLaunch {w : World} {db : DB} {jid : Nat} {j : JobRow} (h0 : jid ≠ 0) (hj : db.job? jid = some j)
    (hst : j.state = "toLaunch") (a : Args) : run w db jid a = launchJob w db j := by
  rcases run_cases w db jid a with ⟨_, h⟩ | ⟨_, _, h⟩ | ⟨j', e', _, h, _, hs, _⟩ | ⟨k, _, hk, _, e⟩
  · rcases h with h | ⟨k, hk, hs, _⟩
    · exact absurd h h0
    · rw [hj] at hk; exact absurd hst ((Option.some.inj hk) ▸ hs)
  · rw [hj] at h; exact absurd h (by simp)
  · rw [hj] at h
    rw [← Option.some.inj h, hst] at hs
    exact absurd hs (by decide)
  · rw [hj] at hk
    rw [e, ← Option.some.inj hk]

theorem checkNodes_verdict_db (w : World) (d d' : DB) (j : JobRow) :
    (checkNodes w d j).verdict = (checkNodes w d' j).verdict ∧ (checkNodes w d j).hosts = (checkNodes w d' j).hosts ∧
      (checkNodes w d j).acts = (checkNodes w d' j).acts := by
  have hp : ∀ d, cpusetPart w d j = { cpusetPart w ⟨[], [], [], [], []⟩ j with db := (cpusetPart w d j).db } := by
    intro d
    unfold cpusetPart
    repeat' split
    all_goals rfl
  have hq : ∀ d d' acts hosts bad ev, (judge d acts hosts j bad ev).verdict = (judge d' acts hosts j bad ev).verdict := by
    intro d d' acts hosts bad ev
    unfold judge
    repeat' split
    all_goals rfl
  unfold checkNodes
  split
  · dsimp only
    rw [hp d, hp d']
    dsimp only
    split
    · exact ⟨hq _ _ _ _ _ _, by rw [judge_hosts, judge_hosts], by rw [judge_acts, judge_acts]⟩
    · exact ⟨hq _ _ _ _ _ _, by rw [judge_hosts, judge_hosts], by rw [judge_acts, judge_acts]⟩
  · exact ⟨rfl, rfl, rfl⟩

/-- A launch that fails without an exception leaves an event that will be treated: a job still Launching has an event naming
the nodes at fault, a job Finishing has the event of the failed start; in both cases oarexec is not running. What is missing
(hence the suffix): with an exception, nothing is reported, see `reservation_forgotten_violated` and
`no_host_forgotten_violated`. -/
theorem failed_launch_reported_partial {w : World} (ha : w.Alone) {db : DB} {jid : Nat} {j : JobRow} (h0 : jid ≠ 0)
    (hj : db.job? jid = some j) (hst : j.state = "toLaunch") (a : Args) (hr : (run w db jid a).raised = false) :
    ((run w db jid a).db.stateOf jid = some "Launching" → (run w db jid a).code = 2 ∧ j.reservation = "None" ∧
      ∃ ev ∈ (run w db jid a).db.events, ev.jid = jid ∧ ev.toCheck = true ∧ ev.hosts ≠ [] ∧
      ((ev.type = "PING_CHECKER_NODE_SUSPECTED" ∧ ∀ x, x ∈ ev.hosts ↔ Silent w w.hosts x) ∨
       (ev.type = "CPUSET_ERROR" ∧ (∀ x ∈ ev.hosts, NoCpuset w x) ∧ ∀ x ∈ w.init.2, x ∈ ev.hosts))) ∧
    ((run w db jid a).db.stateOf jid = some "Finishing" →
      ∃ ev ∈ (run w db jid a).db.events, ev.jid = jid ∧ ev.toCheck = true ∧ ev.type = "LAUNCHING_OAREXEC_TIMEOUT") := by
  have hid : j.id = jid := (job?_some hj).2
  have hL : (setJobState db w.now1 jid "Launching").job? jid = some (withState "Launching" j) :=
    job?_setJobState hj (by rw [hst]; decide) w.now1 (by rw [hst]; decide)
  rw [run_toLaunch h0 hj hst a] at hr ⊢
  have hs := @checkNodes_stop w (w.env 1 (setJobState db w.now1 j.id "Launching")) j
  have hc : (checkNodes w (w.env 1 (setJobState db w.now1 j.id "Launching")) j).db.job? jid = some (withState "Launching" j) := by
    rw [checkNodes_job, ha, hid]; exact hL
  unfold launchJob at hr ⊢
  dsimp only at hr ⊢
  generalize checkNodes w (w.env 1 (setJobState db w.now1 j.id "Launching")) j = c at *
  cases hv : c.verdict with
  | raise => rw [hv] at hr; exact absurd hr (by simp)
  | stop =>
    obtain ⟨h1, ev, h2, h3, h4⟩ := hs hv
    refine ⟨fun _ => ⟨rfl, h1, ev, h2, by rw [h3, hid], h4⟩, ?_⟩
    intro h
    unfold DB.stateOf at h
    dsimp only at h
    rw [hc] at h
    exact absurd (Option.some.inj h) (show "Launching" ≠ "Finishing" by decide)
  | go =>
    rw [hv] at hr
    dsimp only at hr ⊢
    unfold afterChecks at hr ⊢
    dsimp only at hr ⊢
    have hd : (w.env 4 (prologueDb w.prologue2 (w.env 3 (prologueDb w.prologue1 (w.env 2 c.db) j.id)) j.id)).job? jid =
        some (withState "Launching" j) := by
      rw [ha, prologueDb_job, ha, prologueDb_job, ha, hc]
    generalize w.env 4 (prologueDb w.prologue2 (w.env 3 (prologueDb w.prologue1 (w.env 2 c.db) j.id)) j.id) = d at *
    have hR : (setJobState d w.now2 j.id "Running").job? jid = some (withState "Running" (withState "Launching" j)) := by
      rw [hid]
      exact job?_setJobState hd (show "Launching" ∈ aliveStates by decide) _ (show "Launching" ≠ "Running" by decide)
    have hE := endOfJob_job (w := w.atEnd) (now := w.now2) (kc := w.keyClash) (exit := none) (error := 50) (hosts := c.hosts) hd
      (Or.inr (Or.inl rfl))
    unfold launch DB.stateOf at *
    by_cases hn : "noop" ∈ j.types
    · rw [if_pos hn]
      dsimp only
      rw [hR]
      exact ⟨fun h => absurd (Option.some.inj h) (show "Running" ≠ "Launching" by decide),
        fun h => absurd (Option.some.inj h) (show "Running" ≠ "Finishing" by decide)⟩
    · rw [if_neg hn] at hr ⊢
      by_cases ho : w.oarexec = true
      · rw [if_pos ho]
        dsimp only
        rw [hR]
        exact ⟨fun h => absurd (Option.some.inj h) (show "Running" ≠ "Launching" by decide),
          fun h => absurd (Option.some.inj h) (show "Running" ≠ "Finishing" by decide)⟩
      · rw [if_neg ho] at hr ⊢
        dsimp only at hr ⊢
        rw [hid] at hr ⊢
        rw [hE]
        refine ⟨fun h => absurd (Option.some.inj h) (show "Finishing" ≠ "Launching" by decide), fun _ => ?_⟩
        have hnr : ¬ ((namesHost 50 = true ∧ c.hosts = []) ∨ w.atEnd.epilogue = .failed ∨ w.atEnd.epilogue = .timeout) := by
          intro hx
          rw [(endOfJob_raises hd (Or.inr (Or.inl rfl))).2 hx] at hr
          exact absurd hr (by simp)
        have hh : c.hosts ≠ [] := fun he => hnr (Or.inl ⟨by decide, he⟩)
        exact ⟨⟨"LAUNCHING_OAREXEC_TIMEOUT", jid, true, []⟩,
          endOfJob_events hd (Or.inr (Or.inl rfl)) (Or.inr hh) _ (by decide), rfl, rfl, rfl⟩

/-- A failure of the server prologue is reported by an event to be treated and by the exit code, for every behaviour of the
rest of the launch that goes on. -/
theorem prologue_failure_reported {w : World} (ha : w.Alone) {db : DB} {jid : Nat} {j : JobRow} (h0 : jid ≠ 0)
    (hj : db.job? jid = some j) (hst : j.state = "toLaunch") (a : Args)
    (hp : w.prologue1 = .failed ∨ w.prologue1 = .timeout ∨ w.prologue2 = .failed ∨ w.prologue2 = .timeout)
    (hrun : Act.prologue ∈ (run w db jid a).acts) :
    (run w db jid a).code = 2 ∧ ∃ ev ∈ (run w db jid a).db.events, ev.jid = jid ∧ ev.toCheck = true ∧
      (ev.type = "SERVER_PROLOGUE_EXIT_CODE_ERROR" ∨ ev.type = "SERVER_PROLOGUE_TIMEOUT") := by
  have hid : j.id = jid := (job?_some hj).2
  have hL : (setJobState db w.now1 jid "Launching").job? jid = some (withState "Launching" j) :=
    job?_setJobState hj (by rw [hst]; decide) w.now1 (by rw [hst]; decide)
  rw [run_toLaunch h0 hj hst a] at hrun ⊢
  have hnp : Act.prologue ∉ (checkNodes w (w.env 1 (setJobState db w.now1 j.id "Launching")) j).acts := by
    have hcp : ∀ d, Act.prologue ∉ (cpusetPart w d j).acts := by
      intro d
      unfold cpusetPart
      repeat' split
      all_goals simp
    unfold checkNodes
    split
    · dsimp only
      split
      · rw [judge_acts, List.mem_append]
        rintro (h | h)
        · exact hcp _ h
        · exact absurd h (by simp)
      · rw [judge_acts]; exact hcp _
    · simp
  have hc : (checkNodes w (w.env 1 (setJobState db w.now1 j.id "Launching")) j).db.job? jid = some (withState "Launching" j) := by
    rw [checkNodes_job, ha, hid]; exact hL
  unfold launchJob at hrun ⊢
  dsimp only at hrun ⊢
  generalize checkNodes w (w.env 1 (setJobState db w.now1 j.id "Launching")) j = c at *
  cases hv : c.verdict with
  | raise => rw [hv] at hrun; exact absurd hrun hnp
  | stop => rw [hv] at hrun; exact absurd hrun hnp
  | go =>
    dsimp only
    unfold afterChecks
    dsimp only
    have hd : (w.env 4 (prologueDb w.prologue2 (w.env 3 (prologueDb w.prologue1 (w.env 2 c.db) j.id)) j.id)).job? jid =
        some (withState "Launching" j) := by
      rw [ha, prologueDb_job, ha, prologueDb_job, ha, hc]
    have hev : ∃ ev ∈ (w.env 4 (prologueDb w.prologue2 (w.env 3 (prologueDb w.prologue1 (w.env 2 c.db) j.id)) j.id)).events,
        ev.jid = jid ∧ ev.toCheck = true ∧
          (ev.type = "SERVER_PROLOGUE_EXIT_CODE_ERROR" ∨ ev.type = "SERVER_PROLOGUE_TIMEOUT") := by
      rw [ha, ha, ha, hid]
      have keep : ∀ (r : Script) (d : DB) (e : Event), e ∈ d.events → e ∈ (prologueDb r d jid).events := by
        intro r d e he
        unfold prologueDb
        split
        · exact List.mem_append_left _ he
        · exact List.mem_append_left _ he
        · exact he
      rcases hp with h | h | h | h
      · exact ⟨⟨"SERVER_PROLOGUE_EXIT_CODE_ERROR", jid, true, []⟩, keep _ _ _ (by
          rw [h]; exact List.mem_append_right _ (List.mem_singleton.2 rfl)), rfl, rfl, Or.inl rfl⟩
      · exact ⟨⟨"SERVER_PROLOGUE_TIMEOUT", jid, true, []⟩, keep _ _ _ (by
          rw [h]; exact List.mem_append_right _ (List.mem_singleton.2 rfl)), rfl, rfl, Or.inr rfl⟩
      · exact ⟨⟨"SERVER_PROLOGUE_EXIT_CODE_ERROR", jid, true, []⟩, by
          rw [h]; exact List.mem_append_right _ (List.mem_singleton.2 rfl), rfl, rfl, Or.inl rfl⟩
      · exact ⟨⟨"SERVER_PROLOGUE_TIMEOUT", jid, true, []⟩, by
          rw [h]; exact List.mem_append_right _ (List.mem_singleton.2 rfl), rfl, rfl, Or.inr rfl⟩
    have hcode : prologueCode w.prologue2 (prologueCode w.prologue1 0) = 2 := by
      unfold prologueCode
      rcases hp with h | h | h | h <;> simp [h]
    generalize w.env 4 (prologueDb w.prologue2 (w.env 3 (prologueDb w.prologue1 (w.env 2 c.db) j.id)) j.id) = d at *
    rw [hcode]
    obtain ⟨ev, he1, he2⟩ := hev
    have hset : ∀ st, (setJobState d w.now2 j.id st).events = d.events := by
      intro st
      rcases setJobState_cases d w.now2 j.id st with e | ⟨_, _, _, _, e⟩ <;> rw [e]
      rfl
    unfold launch
    split
    · exact ⟨rfl, ev, by dsimp only; rw [hset]; exact he1, he2⟩
    · split
      · exact ⟨rfl, ev, by dsimp only; rw [hset]; exact he1, he2⟩
      · refine ⟨rfl, ev, ?_, he2⟩
        dsimp only
        unfold endOfJob
        cases d.job? j.id with
        | none => exact he1
        | some k =>
          dsimp only
          split
          · split
            · rw [endMarks_events]; exact he1
            · rw [finishSeq_eq]
              dsimp only
              rw [endResubmit_events, endMarks_events]
              exact List.mem_append_left _ he1
          · exact he1

/-! ## The end of an execution -/

/-- The end of an execution is accepted only with the challenge of the job: with another one, or without, the jobs, their logs
and the deletion requests are not changed and no command is started. -/
theorem end_needs_challenge {w : World} {db : DB} {jid : Nat} {j : JobRow} (hj : db.job? jid = some j)
    (he : Executing j.state) {a : Args} (hc : a.challenge ≠ some w.challenge) :
    (run w db jid a).db.jobs = db.jobs ∧ (run w db jid a).db.log = db.log ∧ (run w db jid a).db.frags = db.frags ∧
      (run w db jid a).acts = [] ∧
      ((run w db jid a).db = db ∨ (run w db jid a).db = addEvent db "BIPBIP_CHALLENGE" jid) := by
  rcases run_cases w db jid a with ⟨e, _⟩ | ⟨e, _⟩ | ⟨k, e', _, hk, _, hs, e⟩ | ⟨k, _, hk, hs, _⟩
  · rw [e]; exact ⟨rfl, rfl, rfl, rfl, Or.inl rfl⟩
  · rw [e]; exact ⟨rfl, rfl, rfl, rfl, Or.inl rfl⟩
  · rw [e]
    have hid : k.id = jid := (job?_some hk).2
    unfold reattach
    split
    · exact ⟨rfl, rfl, rfl, rfl, Or.inl rfl⟩
    · exact ⟨rfl, rfl, rfl, rfl, Or.inl rfl⟩
    · rw [if_neg hc]
      split
      · exact ⟨rfl, rfl, rfl, rfl, Or.inl rfl⟩
      · exact ⟨rfl, rfl, rfl, rfl, Or.inr (by rw [hid])⟩
  · rw [hj] at hk
    rw [← Option.some.inj hk] at hs
    rcases he with h | h | h | h <;> rw [h] at hs <;> exact absurd hs (by decide)

/-- With the challenge of the job and integer exit values, the job under execution becomes Finishing with its stop date, not
before its start date, and the exit value of its script; the other jobs are not changed; and the events that say how it ended
are registered if the job has hosts or the exit value of oarexec does not name one. -/
theorem end_recorded {w : World} {db : DB} {jid : Nat} {j : JobRow} (h0 : jid ≠ 0) (hj : db.job? jid = some j)
    (he : Executing j.state) {a : Args} {e : Int} {s : Option Int} (hx : a.exit = some (some e)) (hs : a.script = some s)
    (hc : a.challenge = some w.challenge) :
    (∃ k, (run w db jid a).db.job? jid = some k ∧ k.state = "Finishing" ∧ k.stop = max w.now1 j.start ∧
      (∀ v, s = some v → k.exitCode = some v)) ∧
    (∀ i k, i ≠ jid → db.job? i = some k → (run w db jid a).db.job? i = some k) ∧
    (namesHost e = false ∨ w.hosts ≠ [] →
      ∀ ty ∈ endEvents e, (⟨ty, jid, true, []⟩ : Event) ∈ (run w db jid a).db.events) := by
  have hrun : (run w db jid a).db = (endOfJob w.atEnd db w.now1 w.keyClash jid s e w.hosts).1 := by
    unfold run
    rw [if_neg h0, hj]
    dsimp only
    have hcond : a.exit ≠ none ∧ (j.state = "Launching" ∨ j.state = "Running" ∨ j.state = "Suspended" ∨ j.state = "Resuming") := by
      refine ⟨by rw [hx]; simp, ?_⟩
      rcases he with h | h | h | h
      · exact Or.inr (Or.inl h)
      · exact Or.inl h
      · exact Or.inr (Or.inr (Or.inl h))
      · exact Or.inr (Or.inr (Or.inr h))
    rw [if_pos hcond, hx]
    unfold reattach
    rw [hs]
    dsimp only [Option.getD_some]
    rw [if_pos hc, (job?_some hj).2]
  rw [hrun]
  refine ⟨⟨_, endOfJob_job hj he, rfl, ?_, ?_⟩, ?_, ?_⟩
  · show (if w.now1 < j.start then j.start else w.now1) = max w.now1 j.start
    split <;> omega
  · intro v hv
    rw [hv]
    rfl
  · intro i k hi hk
    exact endOfJob_others (fun h => hi h.symm) hk
  · intro hh
    exact endOfJob_events hj he hh

end Oar.Bipbip
