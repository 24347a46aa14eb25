import Verif.BipbipReport
import Verif.ApiProps
import Verif.KarmaSpec
import Verif.PingProps
import Verif.JobsEvents

/-!
# Further statements on the jobs

Each of them pins a detail that the theorems of the property left free (found by the automatic changes of the model).
-/

namespace Oar.Bipbip

open Oar.Jobs

/-- **C68.** The node where the job is started: the node of the configuration for a `cosystem` job and for a job without node, the one for `deploy` jobs, otherwise the first of its nodes. -/
theorem start_node (w : World) (db : DB) (j : JobRow) (hosts : List String) (acts : List Act) (code : Nat) (n : String) (hn : "noop" ∉ j.types) (h0 : Act.oarexec n ∉ acts) :
    Act.oarexec n ∈ (launch w db j hosts acts code).acts ↔
      (("cosystem" ∈ j.types ∨ hosts = []) ∧ n = w.cosystemHost) ∨
      ("cosystem" ∉ j.types ∧ hosts ≠ [] ∧ "deploy" ∈ j.types ∧ n = w.deployHost) ∨
      ("cosystem" ∉ j.types ∧ "deploy" ∉ j.types ∧ hosts.head? = some n) := by
  have hm : Act.oarexec n ∈ (launch w db j hosts acts code).acts ↔ n = headNode w j hosts := by
    unfold launch
    rw [if_neg hn]
    split
    · dsimp only
      cases userLost w j <;> simp [h0]
    · simp [h0]
  rw [hm]
  unfold headNode
  by_cases h1 : "cosystem" ∈ j.types
  · rw [if_pos (Or.inl h1)]; simp [h1]
  · cases hosts with
    | nil => rw [if_pos (Or.inr rfl)]; simp
    | cons x xs =>
      rw [if_neg (by simp [h1])]
      by_cases h2 : "deploy" ∈ j.types
      · rw [if_pos h2]; simp [h1, h2]
      · rw [if_neg h2]; simp [h1, h2, eq_comm]

/-- **C69.** Leon is called by the last part of a launch exactly for an interactive job without reservation whose user could not be told, once the job is started. -/
theorem leon_called (w : World) (db : DB) (j : JobRow) (hosts : List String) (acts : List Act) (code : Nat) (h0 : Act.callLeon ∉ acts) :
    Act.callLeon ∈ (launch w db j hosts acts code).acts ↔
      "noop" ∉ j.types ∧ w.oarexec = true ∧ j.jtype = "INTERACTIVE" ∧ j.reservation = "None" ∧ w.notified = false := by
  unfold launch
  by_cases hn : "noop" ∈ j.types
  · rw [if_pos hn]; simp [hn, h0]
  · rw [if_neg hn]
    by_cases ho : w.oarexec = true
    · rw [if_pos ho]
      unfold userLost
      by_cases hu : j.jtype = "INTERACTIVE" ∧ j.reservation = "None" ∧ w.notified = false
      · simp [hn, ho, hu]
      · constructor
        · intro h
          simp only [hu, decide_false, Bool.false_eq_true, if_false, List.append_nil, List.mem_append, List.mem_singleton, reduceCtorEq, or_false, h0] at h
        · exact fun h => absurd h.2.2 hu
    · rw [if_neg ho]; simp [ho, h0]

/-- The exit values of oarexec whose event names no node: the prologue, the epilogue and the normal ends. -/
def Nameless (error : Int) : Prop := error ∈ [0, 1, 2, 3, 5, 6, 22, 33, 34, 40, 41, 42]

/-- **C70.** The end of an execution that lasts is recorded by an exception exactly when the event names a node and the job has none (server epilogue and nodes put aside). -/
theorem end_raises_iff (w : EndWorld) (db : DB) (now : Int) (kc : Bool) (jid : Nat) (exit : Option Int) (error : Int) (hosts : List String) (j : JobRow) (hj : db.job? jid = some j)
    (hs : j.state = "Running") (he : w.epilogue ≠ .failed ∧ w.epilogue ≠ .timeout) :
    (endOfJob w db now kc jid exit error hosts).2 = true ↔ (¬ Nameless error ∧ hosts = []) := by
  have hnn : namesHost error = true ↔ ¬ Nameless error := by
    unfold namesHost Nameless
    simp only [List.mem_cons, List.not_mem_nil, or_false, Bool.not_eq_true', decide_eq_false_iff_not]
    constructor <;> (intro h hc; apply h; rcases hc with hc | hc | hc | hc | hc | hc | hc | hc | hc | hc | hc | hc <;> simp [hc])
  rw [endOfJob_raises hj (Or.inl hs), hnn]
  simp [he.1, he.2]

/-- The events of each exit value of oarexec (oar/tools/oarexec, oar/lib/job_handling.py:2135-2362). -/
def table : List (Int × List String) :=
  [(0, ["SWITCH_INTO_TERMINATE_STATE"]), (1, ["PROLOGUE_ERROR"]), (2, ["EPILOGUE_ERROR"]), (3, ["SWITCH_INTO_ERROR_STATE"]), (5, ["CANNOT_WRITE_NODE_FILE"]),
   (6, ["CANNOT_WRITE_PID_FILE"]), (7, ["USER_SHELL"]), (8, ["CANNOT_CREATE_TMP_DIRECTORY"]), (10, ["SWITCH_INTO_ERROR_STATE", "WORKING_DIRECTOR"]),
   (12, ["SWITCH_INTO_ERROR_STATE", "WORKING_DIRECTORY", "EPILOGUE_ERROR"]), (20, ["SWITCH_INTO_ERROR_STATE", "OUTPUT_FILES"]),
   (22, ["SWITCH_INTO_ERROR_STATE", "OUTPUT_FILES", "EPILOGUE_ERROR"]), (30, ["SSH_TRANSFER_TIMEOUT"]), (31, ["BAD_HASHTABLE_DUMP"]),
   (33, ["SWITCH_INTO_TERMINATE_STATE", "EPILOGUE_ERROR"]), (34, ["SWITCH_INTO_TERMINATE_STATE"]), (40, ["SWITCH_INTO_TERMINATE_STATE"]),
   (41, ["SWITCH_INTO_TERMINATE_STATE", "EPILOGUE_ERROR"]), (42, ["SWITCH_INTO_TERMINATE_STATE"]), (50, ["LAUNCHING_OAREXEC_TIMEOUT"])]

/-- **C70.** The events of the end of an execution with the exit value `e` of oarexec are those of the table, `EXIT_VALUE_OAREXEC` for another value: they are registered to be checked. -/
theorem end_reported {w : EndWorld} {db : DB} {now : Int} {kc : Bool} {jid : Nat} {exit : Option Int} {error : Int} {hosts : List String} {j : JobRow} (hj : db.job? jid = some j)
    (hs : j.state = "Running") (hh : Nameless error ∨ hosts ≠ []) :
    (∀ evs, (error, evs) ∈ table → ∀ ty ∈ evs, (⟨ty, jid, true, []⟩ : Event) ∈ (endOfJob w db now kc jid exit error hosts).1.events) ∧
    (error ∉ table.map (·.1) → (⟨"EXIT_VALUE_OAREXEC", jid, true, []⟩ : Event) ∈ (endOfJob w db now kc jid exit error hosts).1.events) := by
  have hh' : namesHost error = false ∨ hosts ≠ [] := by
    rcases hh with h | h
    · left
      unfold namesHost
      unfold Nameless at h
      simp only [List.mem_cons, List.not_mem_nil, or_false] at h
      rcases h with h | h | h | h | h | h | h | h | h | h | h | h <;> subst h <;> rfl
    · exact Or.inr h
  have hev := endOfJob_events (w := w) (now := now) (kc := kc) (exit := exit) hj (Or.inl hs) hh'
  constructor
  · intro evs hm ty hty
    apply hev
    simp only [table, List.mem_cons, Prod.mk.injEq, List.not_mem_nil, or_false] at hm
    rcases hm with h | h | h | h | h | h | h | h | h | h | h | h | h | h | h | h | h | h | h | h <;> (obtain ⟨h1, h2⟩ := h; subst h1; subst h2; exact hty)
  · intro hn
    apply hev
    simp only [table, List.map_cons, List.map_nil, List.mem_cons, List.not_mem_nil, or_false, not_or] at hn
    obtain ⟨h0, h1, h2, h3, h5, h6, h7, h8, h10, h12, h20, h22, h30, h31, h33, h34, h40, h41, h42, h50⟩ := hn
    simp [endEvents, h0, h1, h2, h3, h5, h6, h7, h8, h10, h12, h20, h22, h30, h31, h33, h34, h40, h41, h42, h50]

end Oar.Bipbip

namespace Oar.Api

/-- **C57.** What is given for a job: the resources, still in the table, of the assignments of all the jobs (an assignment belongs to the job whose moldable it is). -/
theorem resources_exact (db : Db) (i r : Nat) : r ∈ oneJobResources db i ↔ r ∈ db.rids ∧ ∃ j ∈ db.jobs, ∃ a ∈ db.assigned, a.mold = j.mold ∧ a.rid = r := by
  unfold oneJobResources
  simp only [List.mem_flatMap, List.mem_map, List.mem_filter, Bool.and_eq_true, beq_iff_eq, decide_eq_true_eq]
  constructor
  · rintro ⟨j, hj, a, ⟨ha, h1, h2⟩, rfl⟩
    exact ⟨h2, j, hj, a, ha, h1.symm, rfl⟩
  · rintro ⟨h, j, hj, a, ha, h1, rfl⟩
    exact ⟨j, hj, a, ⟨ha, h1.symm, h⟩, rfl⟩

end Oar.Api

namespace Oar.Queues

/-- **C60.** The karma of a job cannot be computed (an exception, for the whole queue) exactly when its user has a target, when nothing was used or nothing was asked in the window, or when the target of
its project is not a number. -/
theorem karma_none_iff (cf : KarmaConf) (t : Oar.Accounting.Table) (queues : List String) (now : Int) (j : WJob) :
    karma cf t queues now j = none ↔ (cf.userTargets.lookup j.user).isSome = true ∨ sumWindow queues (now - cf.window) now "USED" t = 0 ∨
      sumWindow queues (now - cf.window) now "ASKED" t = 0 ∨ projTarget cf j.project = none := by
  unfold karma
  by_cases h1 : (cf.userTargets.lookup j.user).isSome = true
  · rw [if_pos h1]; simp [h1]
  · rw [if_neg h1]
    by_cases h2 : sumWindow queues (now - cf.window) now "USED" t = 0 ∨ sumWindow queues (now - cf.window) now "ASKED" t = 0
    · rw [if_pos h2]
      exact ⟨fun _ => Or.inr (h2.elim Or.inl (fun h => Or.inr (Or.inl h))), fun _ => rfl⟩
    · rw [if_neg h2, Option.map_eq_none_iff]
      constructor
      · exact fun h => Or.inr (Or.inr (Or.inr h))
      · rintro (h | h | h | h)
        · exact absurd h h1
        · exact absurd (Or.inl h) h2
        · exact absurd (Or.inr h) h2
        · exact h

end Oar.Queues

namespace Oar.Ping

open Oar.Tools

/-- **C77.** A line of fping names its node exactly when the word `alive` is in the text after the name. -/
theorem filterFping_line (h rest : List Char) (hh : HostName h) (hr : ∀ c t, rest = c :: t → isSp c = false) :
    ((∃ a b, rest = a ++ ['a', 'l', 'i', 'v', 'e'] ++ b) → filterFping (h ++ ' ' :: rest) = some h) ∧
    ((¬ ∃ a b, rest = a ++ ['a', 'l', 'i', 'v', 'e'] ++ b) → filterFping (h ++ ' ' :: rest) = none) := by
  have e0 : (h ++ ' ' :: rest).dropWhile isSp = h ++ ' ' :: rest := by
    have hx := takeDrop (p := isSp) (h := []) (r := h ++ ' ' :: rest) (by simp) (by
      intro c t e
      have hc : c ∈ h := by
        obtain ⟨x, y, hxy⟩ := List.exists_cons_of_ne_nil hh.1
        rw [hxy] at e ⊢
        rw [List.cons_append] at e
        have := (List.cons.inj e).1
        subst this; exact List.mem_cons_self
      have := hh.2 c hc
      unfold isSp
      unfold isHost at this
      cases hs : (c == ' ' || c == '\t' || c == '\n' || c == '\r' || c == '\x0b' || c == '\x0c') with
      | false => rfl
      | true =>
        simp only [Bool.or_eq_true, beq_iff_eq] at hs
        rcases hs with ((((rfl | rfl) | rfl) | rfl) | rfl) | rfl <;> exact absurd this (by decide))
    exact hx.2
  obtain ⟨e1, e2⟩ := takeDrop (p := isHost) (h := h) (r := ' ' :: rest) hh.2
    (by intro c t e; have := (List.cons.inj e).1; subst this; decide)
  obtain ⟨_, e3⟩ := takeDrop (p := isSp) (h := [' ']) (r := rest) (by intro c hc; simp only [List.mem_singleton] at hc; subst hc; decide) hr
  have e3' : (' ' :: rest).dropWhile isSp = rest := e3
  have key : filterFping (h ++ ' ' :: rest) = if h ≠ [] ∧ contains (txt "alive") rest = true then some h else none := by
    unfold filterFping
    dsimp only
    rw [e0, e1, e2, e3']
  rw [key]
  constructor
  · intro hx; rw [if_pos ⟨hh.1, (contains_spec _ _).2 hx⟩]
  · intro hx; rw [if_neg (fun hc => hx ((contains_spec _ _).1 hc.2))]

end Oar.Ping

namespace Oar.Jobs

/-- **C34.** The row of a job created by a resubmission: a new identifier, waiting, without exit code nor moldable, with the identifier of the old job; the other columns are kept (the start date too). -/
theorem resubmitted_row (db : DB) (now : Int) (kc : Bool) (user : String) (jid : Nat) (h : (resubmitJob db now kc user jid).1 = 0) :
    ∃ j nid, db.job? jid = some j ∧ (∀ k ∈ db.jobs, k.id < nid) ∧ (resubmitJob db now kc user jid).2.2 = nid ∧
      (resubmitJob db now kc user jid).2.1.jobs = db.jobs ++ [{ j with id := nid, state := "Waiting", exitCode := none, assigned := 0, resubmit := j.id }] := by
  rcases resubmitJob_spec db now kc user jid with ⟨j, hj, h1, h2, h3, h4, h5, h6, _⟩ | ⟨_, h1, _⟩
  · refine ⟨j, nextId db, hj, fun k hk => lt_nextId hk, ?_, h6⟩
    unfold resubmitJob at h ⊢
    rw [hj] at h ⊢
    dsimp only at h ⊢
    split at h
    · simp at h
    · rename_i c1
      split at h
      · simp at h
      · rename_i c2
        split at h
        · simp at h
        · rename_i c3
          split at h
          · simp at h
          · rename_i c4
            rw [if_neg c1, if_neg c2, if_neg c3, if_neg c4]
  · omega

end Oar.Jobs
