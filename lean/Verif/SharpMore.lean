import Verif.WalltimeProps
import Verif.Keys
import Verif.QueuesProps
import Verif.AlmightyProps
import Verif.WalltimeCliProps
import Verif.ResourcesProps
import Verif.JobsEvents
import Verif.Round
import Verif.ArchiveProps

/-!
# Further statements found by the automatic sweep (C22, C28, C34, C35, C50, C61, C82, C86, C95, C100, C107)
-/

namespace Oar.Walltime

/-- **C50.** A positive request that is not forced waits while the end of the job is further than the delay of application; a forced one never waits for that reason. -/
theorem request_waits (r : Round) (p : Proc) (h0 : 0 < p.row.pending) (ha : 0 < r.applyTime) :
    (p.row.force = false → r.now < p.start + p.walltime + r.suspended - r.applyTime → processOne r p = p) ∧
    (p.row.force = true → processOne r p = processOne { r with applyTime := 0 } p) := by
  constructor
  · intro hf hl
    have h1 : fitUp r p = none := by
      unfold fitUp
      dsimp only
      rw [if_pos ⟨hf, by omega, by omega⟩]
    unfold processOne
    dsimp only
    rw [if_neg (by omega), if_pos h0, h1]
  · intro hf
    have h1 : fitUp r p = fitUp { r with applyTime := 0 } p := by
      unfold fitUp
      dsimp only
      simp only [hf, Bool.true_eq_false, false_and, if_false]
      rfl
    unfold processOne
    rw [h1]
    rfl

/-- The hypotheses hold: a job that ends at 4600 and a delay of application of 1000 seconds, at date 2000. -/
example : processOne { round0 with now := 2000, applyTime := 1000 } ⟨1000, 3600, {1}, ⟨300, false, false, 0, 0, 0⟩⟩ = ⟨1000, 3600, {1}, ⟨300, false, false, 0, 0, 0⟩⟩ :=
  (request_waits _ _ (by decide) (by decide)).1 rfl (by decide)

/-- **C22.** The end of a job is moved before the start, less the security time, of each later prediction on a common resource that is not besteffort - and, when the request may delay the next jobs,
that is an advance reservation; it is moved by no other one. -/
theorem end_before_next (from_ to_ sec : Int) (rids : Finset Nat) (d : Bool) (gantt : List Pred) (hpos : 0 < to_) (hsec : 0 ≤ sec) (hfrom : sec < from_) :
    (∀ p ∈ gantt, p.besteffort = false → (d = true → p.reservation = true) → (∃ x ∈ rids, x ∈ p.rids) → from_ < p.start → possibleEnd from_ to_ rids sec d gantt + sec ≤ p.start) ∧
    ((∀ p ∈ gantt, p.besteffort = true ∨ (d = true ∧ p.reservation = false) ∨ (∀ x ∈ rids, x ∉ p.rids)) → possibleEnd from_ to_ rids sec d gantt = to_) := by
  refine ⟨fun p hp hb hr hx hs => (possibleEnd_spec from_ to_ sec rids d gantt hpos hsec hfrom).2 p hp ⟨hr, hb, ?_⟩ hs, fun h => ?_⟩
  · obtain ⟨x, h1, h2⟩ := hx
    exact fun hd => Finset.disjoint_left.1 hd h2 h1
  · unfold possibleEnd
    have : gantt.filter (fun p => decide (p.matters rids d) && decide (p.start > from_) && decide (p.start ≤ to_ + sec)) = [] := by
      rw [List.filter_eq_nil_iff]
      intro p hp hc
      simp only [Bool.and_eq_true, decide_eq_true_eq] at hc
      obtain ⟨⟨⟨h1, h2, h3⟩, _⟩, _⟩ := hc
      rcases h p hp with h | h | h
      · rw [h2] at h; cases h
      · rw [h1 h.1] at h; exact absurd h.2 (by simp)
      · exact h3 (Finset.disjoint_left.2 (fun x hx hx' => h x hx' hx))
    rw [this]
    rfl

/-- The hypotheses hold: a besteffort job on the same resource does not limit the end, another one does. -/
example : possibleEnd 10 100 {1} 1 false [⟨50, {1}, false, true⟩] = 100 ∧ possibleEnd 10 100 {1} 1 false [⟨50, {1}, false, false⟩] + 1 ≤ 50 := by
  constructor
  · exact (end_before_next 10 100 1 {1} false _ (by decide) (by decide) (by decide)).2 (by simp)
  · exact (end_before_next 10 100 1 {1} false _ (by decide) (by decide) (by decide)).1 ⟨50, {1}, false, false⟩ (by simp) rfl (by simp) (by simp) (by decide)

end Oar.Walltime

namespace Oar.Keys

/-- **C86.** A job has a key when the option asks for it, when the configuration forces it with one of four words, or when the variable of the environment is set - to anything. -/
theorem key_used_iff (option : Bool) (conf env file : Option String) :
    useKey option conf env file = true ↔ option = true ∨ conf = some "yes" ∨ conf = some "YES" ∨ conf = some "Yes" ∨ conf = some "1" ∨ ∃ v, env = some v := by
  unfold useKey
  cases conf with
  | none => cases env <;> simp
  | some c => cases env <;> simp

end Oar.Keys

namespace Oar.Queues

/-- **C61.** Braces and white space anywhere in a table of the configuration change nothing. -/
theorem table_white_space (a b : List Char) (c : Char) (h : c ∈ ['{', '}', ' ', '\t', '\n', '\r', '\x0b', '\x0c']) : perlHash2Dict (a ++ c :: b) = perlHash2Dict (a ++ b) := by
  unfold perlHash2Dict
  have e : stripHash (c :: b) = stripHash b := by
    unfold stripHash
    rw [List.filter_cons]
    rw [if_neg]
    simp only [List.mem_cons, List.not_mem_nil, or_false] at h
    rcases h with h | h | h | h | h | h | h | h <;> subst h <;> decide
  rw [stripHash_append, e, ← stripHash_append]

example : perlHash2Dict "{ a =>\n1 }".toList = perlHash2Dict "{ a =>1 }".toList := table_white_space "{ a =>".toList "1 }".toList '\n' (by decide)

end Oar.Queues

namespace Oar.Almighty

/-- **C28.** After its start, when no message has come, the server asks for a scheduling from date 60 on, for the villains from date 10 on, and for the test of the nodes when it is configured. -/
theorem first_turns (cfg : Cfg) (i j : Inp) (hi : i.stop = false ∧ i.greta = false ∧ i.msg = none) (hj : j.stop = false ∧ j.greta = false) :
    (run cfg init [i, j]).2 = [.took "Time"] ∧
    ("Scheduling" ∈ (run cfg init [i, j]).1.queue ↔ 60 ≤ j.now) ∧ ("Villains" ∈ (run cfg init [i, j]).1.queue ↔ 10 ≤ j.now) ∧
    ("Finaud" ∈ (run cfg init [i, j]).1.queue ↔ cfg.finaud ≤ j.now ∧ 0 < cfg.finaud) := by
  have h1 : step cfg init i = (⟨.timeUpdate, [], 0, 0, 0, false, false⟩, [.took "Time"]) := by
    unfold step
    rw [if_neg (by simp [init, hi.1]), if_neg (by simp [hi.2.1])]
    show stepQget init i = _
    unfold stepQget
    rw [hi.2.2]
    decide
  have h2 : step cfg ⟨.timeUpdate, [], 0, 0, 0, false, false⟩ j = (⟨.qget, timeUpdate cfg ⟨.timeUpdate, [], 0, 0, 0, false, false⟩ j.now, 0, 0, 0, false, false⟩, []) := by
    unfold step
    rw [if_neg (by simp [hj.1]), if_neg (by simp [hj.2])]
    rfl
  simp only [run, h1, h2]
  refine ⟨rfl, ?_⟩
  unfold timeUpdate
  simp only [Int.zero_add, ge_iff_le, gt_iff_lt]
  by_cases a : 60 ≤ j.now
  · have b : 10 ≤ j.now := by omega
    by_cases c : cfg.finaud ≤ j.now ∧ 0 < cfg.finaud <;> simp [a, b, c, addCommand]
  · by_cases b : 10 ≤ j.now
    · by_cases c : cfg.finaud ≤ j.now ∧ 0 < cfg.finaud <;> simp [a, b, c, addCommand]
    · by_cases c : cfg.finaud ≤ j.now ∧ 0 < cfg.finaud <;> simp [a, b, c, addCommand]

example : "Villains" ∈ (run ⟨5, 300⟩ init [{ now := 10, fin := 10 }, { now := 10, fin := 10 }]).1.queue :=
  (first_turns ⟨5, 300⟩ { now := 10, fin := 10 } { now := 10, fin := 10 } ⟨rfl, rfl, rfl⟩ ⟨rfl, rfl⟩).2.2.1.2 (by decide)

end Oar.Almighty

namespace Oar.WalltimeCli
open Oar.Walltime

/-- **C100.** A setting that is not related to the walltime of the job is read as it is written, ratio or not. -/
theorem setting_unscaled (ev : Eval) (setting : Atom) (queue : String) : getConf ev setting queue none = raw ev setting queue := by
  unfold getConf
  cases raw ev setting queue with
  | none => rfl
  | some a => cases a <;> rfl

/-- **C100.** Whatever the limits, they are compared only for a job that runs: the status of another one, without assigned moldable, is 0 as soon as the settings are read and the users who can force are
well written; for a running job a minimum that is not a number raises. -/
theorem status_limits (ev : Eval) (st : Settings) (k : Known) (row : Option Wtc) (vmax vmin vf vd : Atom) (he : st.enabled = some "YES") (hm : k.mold = 0)
    (h1 : getConf ev st.maxIncrease k.queue (some (0 - ((row.map (·.granted)).getD 0))) = some vmax) (h2 : getConf ev st.minForChange k.queue none = some vmin)
    (h3 : getConf ev st.forceUsers k.queue none = some vf) (h4 : getConf ev st.delayUsers k.queue none = some vd) :
    (k.job.state ≠ "Running" → users vf ≠ none → status ev st (some k) row = some 0) ∧
    (k.job.state = "Running" → number vmin = none → status ev st (some k) row = none) ∧
    (k.job.state = "Running" → ∀ m, number vmin = some m → 0 < m → users vf ≠ none → status ev st (some k) row = some 0) ∧
    (k.job.state = "Running" → ∀ m, number vmin = some m → m ≤ 0 → number vmax = none → status ev st (some k) row = none) := by
  unfold status
  rw [if_neg (fun h => h he)]
  dsimp only
  rw [if_neg (fun h => h hm), h1, h2, h3, h4]
  dsimp only
  refine ⟨fun a b => ?_, fun a b => ?_, fun a m b c d => ?_, fun a m b c d => ?_⟩
  · rw [if_neg (fun h => a h.1), if_neg b]
  · rw [if_pos ⟨a, Or.inl b⟩]
  · rw [if_neg, if_neg d]
    rintro ⟨_, h | ⟨h, _⟩⟩
    · rw [b] at h; cases h
    · rw [b] at h; exact h c
  · rw [if_pos ⟨a, Or.inr ⟨by rw [b]; exact not_lt.2 c, d⟩⟩]

/-- The hypotheses hold of the running job of the example, once it has no assigned moldable: the maximum of its queue is a number, the minimum 0. -/
example : number (.str ['a']) = none ∧ status exEval { exSettings with minForChange := .str [] } (some { exKnown with mold := 0 }) none = none :=
  ⟨rfl, (status_limits exEval { exSettings with minForChange := .str [] } { exKnown with mold := 0 } none (.int 7200) (.str []) (.str []) (.str []) rfl rfl rfl rfl rfl rfl).2.1 rfl rfl⟩

end Oar.WalltimeCli

namespace Oar.Res

/-- **C82.** The columns that nobody sets by their name. -/
theorem protected_columns (w : RDB) (now : Int) (sel : Res → Bool) (v : String) :
    ∀ p ∈ ["resource_id", "state", "state_num", "next_state", "finaud_decision", "next_finaud_decision", "last_job_date", "suspended_jobs", "expiry_date", "scheduler_priority"],
      setProp w now sel p v = w := by
  intro p hp
  unfold setProp
  rw [if_pos (by simpa [systemProps] using hp)]

end Oar.Res

namespace Oar.Jobs

/-- **C35.** The failures of nodes: when the server treats one of these events, the nodes named by the event (the first six) or those of the job are suspected. -/
theorem node_failures (ty : String) : ty ∈ suspectTypes ↔ ty ∈ ["PING_CHECKER_NODE_SUSPECTED", "PING_CHECKER_NODE_SUSPECTED_END_JOB", "CPUSET_ERROR", "CPUSET_CLEAN_ERROR", "SUSPEND_ERROR", "RESUME_ERROR"] ∨
    ty ∈ ["PROLOGUE_ERROR", "EPILOGUE_ERROR", "CANNOT_WRITE_NODE_FILE", "CANNOT_WRITE_PID_FILE", "USER_SHELL", "EXTERMINATE_JOB", "CANNOT_CREATE_TMP_DIRECTORY", "SSH_TRANSFER_TIMEOUT", "BAD_HASHTABLE_DUMP",
      "LAUNCHING_OAREXEC_TIMEOUT", "EXIT_VALUE_OAREXEC", "FORCE_TERMINATE_FINISHING_JOB"] := by
  rw [← List.mem_append]
  exact Iff.rfl

/-- **C34.** The failures of the infrastructure after which a passive job without reservation is resubmitted. -/
theorem resubmitting_failures (ty : String) : ty ∈ resubmitTypes ↔ ty ∈ ["SERVER_PROLOGUE_TIMEOUT", "SERVER_PROLOGUE_EXIT_CODE_ERROR", "SERVER_EPILOGUE_TIMEOUT", "PING_CHECKER_NODE_SUSPECTED"] ∨
    ty ∈ ["CPUSET_ERROR", "PROLOGUE_ERROR", "CANNOT_WRITE_NODE_FILE", "CANNOT_WRITE_PID_FILE", "USER_SHELL", "CANNOT_CREATE_TMP_DIRECTORY", "LAUNCHING_OAREXEC_TIMEOUT"] := by
  rw [← List.mem_append]
  exact Iff.rfl

end Oar.Jobs

namespace Oar.Round

/-- **C95.** Acknowledging a reservation changes the row of its job only. -/
theorem acknowledged_row (db : Launch.DB) (o : Kao.ArOut) : (ackResv db o).jobs.length = db.jobs.length ∧ ∀ i (h : i < db.jobs.length), ∃ j', (ackResv db o).jobs[i]? = some j' ∧
    (db.jobs[i].id ≠ o.job.id → j' = db.jobs[i]) ∧ (db.jobs[i].id = o.job.id → j'.id = o.job.id ∧ j'.start = o.job.startTime ∧ (o.resaScheduled = true → j'.reservation = "Scheduled") ∧
      (∀ st, o.states.getLast? = some st → j'.state = st)) := by
  unfold ackResv
  refine ⟨by simp, fun i h => ?_⟩
  refine ⟨_, by rw [List.getElem?_map, List.getElem?_eq_getElem h, Option.map_some], fun hn => by rw [if_neg hn], fun he => ?_⟩
  rw [if_pos he]
  refine ⟨he, rfl, fun hr => by rw [hr]; rfl, fun st hst => ?_⟩
  show o.states.getLastD _ = st
  rw [List.getLastD_eq_getLast?, hst]
  rfl

end Oar.Round

namespace Oar.Archive

/-- **C107.** A job can leave every state, except the two final ones. -/
theorem state_written (db : DB) (j : Job) (hj : j ∈ db.jobs) (st : String) (hst : j.state ≠ st)
    (h : j.state ∈ ["Waiting", "Hold", "toLaunch", "toError", "toAckReservation", "Launching", "Running", "Suspended", "Resuming", "Finishing"]) :
    ∃ db', writeState db j.id st = some db' ∧ ∀ k ∈ db'.jobs, k.id = j.id → k.state = st := by
  unfold writeState
  rw [if_pos]
  · refine ⟨_, rfl, fun k hk e => ?_⟩
    obtain ⟨x, _, rfl⟩ := List.mem_map.1 hk
    by_cases hx : x.id = j.id
    · rw [if_pos hx]
    · rw [if_neg hx] at e; exact absurd e hx
  · rw [List.any_eq_true]
    refine ⟨j, hj, ?_⟩
    have : j.state ∈ leavable := by
      unfold leavable
      simp only [List.mem_cons, List.not_mem_nil, or_false] at h ⊢
      rcases h with h | h | h | h | h | h | h | h | h | h <;> simp [h]
    simp [this, hst]

example : ∃ db', writeState { jobs := [⟨4, "Resuming", 2⟩], molds := [], asg := [], deps := [], res := [], gantt := [] } 4 "Error" = some db' ∧ ∀ k ∈ db'.jobs, k.id = 4 → k.state = "Error" :=
  state_written _ ⟨4, "Resuming", 2⟩ (by simp) "Error" (by decide) (by decide)

end Oar.Archive
