import Verif.BipbipWitness

/-!
# The nodes that fail at the end of a job
-/

namespace Oar.Bipbip

open Oar.Jobs

/-- The nodes of a job with these types are cleaned at its end, when the cpusets are configured. -/
def CleanedAtEnd (types : List String) : Prop := ∀ t ∈ types, t ≠ "deploy" ∧ t ≠ "cosystem" ∧ t ≠ "noop"

/-- The nodes of a job with these types are pinged at its end, when this is configured. -/
def PingedAtEnd (types : List String) : Prop := ∀ t ∈ types, t ≠ "deploy" ∧ t ≠ "noop"

theorem not_mem_iff_all {types : List String} {x : String} : x ∉ types ↔ ∀ t ∈ types, t ≠ x :=
  ⟨fun h _ ht e => h (e ▸ ht), fun h hx => h x hx rfl⟩

theorem cleaned_iff (types : List String) : CleanedAtEnd types ↔ "deploy" ∉ types ∧ "cosystem" ∉ types ∧ "noop" ∉ types := by
  simp only [CleanedAtEnd, not_mem_iff_all]
  exact ⟨fun h => ⟨fun t ht => (h t ht).1, fun t ht => (h t ht).2.1, fun t ht => (h t ht).2.2⟩,
    fun h t ht => ⟨h.1 t ht, h.2.1 t ht, h.2.2 t ht⟩⟩

theorem pinged_iff (types : List String) : PingedAtEnd types ↔ "deploy" ∉ types ∧ "noop" ∉ types := by
  simp only [PingedAtEnd, not_mem_iff_all]
  exact ⟨fun h => ⟨fun t ht => (h t ht).1, fun t ht => (h t ht).2⟩, fun h t ht => ⟨h.1 t ht, h.2 t ht⟩⟩

/-- The events about the nodes expected at the end of the job `jid`: the cleaning could not be started; the nodes it failed on; the
nodes that do not answer, all of them when the ping itself failed. -/
inductive NodeReport (w : EndWorld) (jid : Nat) (types : List String) : Event → Prop
  | notStarted : CleanedAtEnd types → w.cpusetNodes ≠ [] → w.clean.1 = false →
      NodeReport w jid types ⟨"CPUSET_MANAGER_FILE", jid, true, []⟩
  | notCleaned : CleanedAtEnd types → w.cpusetNodes ≠ [] → w.clean.1 = true → w.clean.2 ≠ [] →
      NodeReport w jid types ⟨"CPUSET_CLEAN_ERROR", jid, true, w.clean.2.eraseDups⟩
  | pingFailed : PingedAtEnd types → w.pingAtEnd = true → w.ping.1 = false →
      NodeReport w jid types ⟨"PING_CHECKER_NODE_SUSPECTED_END_JOB", jid, true, w.hosts.eraseDups⟩
  | silent : PingedAtEnd types → w.pingAtEnd = true → w.ping.1 = true → w.ping.2 ≠ [] →
      NodeReport w jid types ⟨"PING_CHECKER_NODE_SUSPECTED_END_JOB", jid, true, w.ping.2.eraseDups⟩

theorem registered_append (jid : Nat) : ∀ (a b : List (String × HostArg)), (∀ ty, (ty, HostArg.nothing) ∉ a) →
    registered jid (a ++ b) = registered jid a ++ registered jid b
  | [], _, _ => rfl
  | (ty, .pair) :: a, b, h => by
    rw [List.cons_append, registered, registered, registered_append jid a b (fun t ht => h t (List.mem_cons_of_mem _ ht))]
    rfl
  | (ty, .hosts _) :: a, b, h => by
    rw [List.cons_append, registered, registered, registered_append jid a b (fun t ht => h t (List.mem_cons_of_mem _ ht))]
    rfl
  | (ty, .nothing) :: a, b, h => absurd (List.mem_cons_self) (h ty)

theorem cleaned_events (w : EndWorld) (jid : Nat) (types : List String) (e : Event) :
    e ∈ registered jid (cleanEvents w types ++ pingEvents w types) ↔ NodeReport w jid types e := by
  have hc : ∀ ty, (ty, HostArg.nothing) ∉ cleanEvents w types := by
    intro ty
    unfold cleanEvents
    repeat' split
    all_goals simp
  rw [registered_append jid _ _ hc, List.mem_append]
  have h1 : e ∈ registered jid (cleanEvents w types) ↔ (CleanedAtEnd types ∧ w.cpusetNodes ≠ [] ∧
      ((w.clean.1 = false ∧ e = ⟨"CPUSET_MANAGER_FILE", jid, true, []⟩) ∨
        (w.clean.1 = true ∧ w.clean.2 ≠ [] ∧ e = ⟨"CPUSET_CLEAN_ERROR", jid, true, w.clean.2.eraseDups⟩))) := by
    unfold cleanEvents
    rw [cleaned_iff]
    by_cases h : "deploy" ∉ types ∧ "cosystem" ∉ types ∧ "noop" ∉ types ∧ w.cpusetNodes ≠ []
    · rw [if_pos h]
      cases hb : w.clean.1 with
      | false => simp [registered, h]
      | true =>
        rw [if_neg (by simp)]
        by_cases hn : w.clean.2 ≠ []
        · rw [if_pos hn]; simp [registered, h, hn]
        · rw [if_neg hn]; simp [registered, hn]
    · rw [if_neg h]
      simp only [registered, List.not_mem_nil, false_iff]
      rintro ⟨⟨a, b, c⟩, d, _⟩
      exact h ⟨a, b, c, d⟩
  have h2 : e ∈ registered jid (pingEvents w types) ↔ (PingedAtEnd types ∧ w.pingAtEnd = true ∧
      ((w.ping.1 = false ∧ e = ⟨"PING_CHECKER_NODE_SUSPECTED_END_JOB", jid, true, w.hosts.eraseDups⟩) ∨
        (w.ping.1 = true ∧ w.ping.2 ≠ [] ∧ e = ⟨"PING_CHECKER_NODE_SUSPECTED_END_JOB", jid, true, w.ping.2.eraseDups⟩))) := by
    unfold pingEvents
    rw [pinged_iff]
    by_cases h : w.pingAtEnd = true ∧ "deploy" ∉ types ∧ "noop" ∉ types
    · rw [if_pos h]
      cases hb : w.ping.1 with
      | false => simp [registered, h]
      | true =>
        rw [if_neg (by simp)]
        by_cases hn : w.ping.2 ≠ []
        · rw [if_pos hn]; simp [registered, h, hn]
        · rw [if_neg hn]; simp [registered, hn]
    · rw [if_neg h]
      simp only [registered, List.not_mem_nil, false_iff]
      rintro ⟨⟨a, b⟩, d, _⟩
      exact h ⟨d, a, b⟩
  rw [h1, h2]
  constructor
  · rintro (⟨c, n, (⟨f, rfl⟩ | ⟨f, m, rfl⟩)⟩ | ⟨c, n, (⟨f, rfl⟩ | ⟨f, m, rfl⟩)⟩)
    · exact .notStarted c n f
    · exact .notCleaned c n f m
    · exact .pingFailed c n f
    · exact .silent c n f m
  · rintro (⟨c, n, f⟩ | ⟨c, n, f, m⟩ | ⟨c, n, f⟩ | ⟨c, n, f, m⟩)
    · exact Or.inl ⟨c, n, Or.inl ⟨f, rfl⟩⟩
    · exact Or.inl ⟨c, n, Or.inr ⟨f, m, rfl⟩⟩
    · exact Or.inr ⟨c, n, Or.inl ⟨f, rfl⟩⟩
    · exact Or.inr ⟨c, n, Or.inr ⟨f, m, rfl⟩⟩

/-- **The nodes that fail at the end of a job are reported, and no other.** At the end of the execution of a job, when the server
epilogue succeeds and the exit value of oarexec is 0, exactly the events of `NodeReport` are added (the job is not resubmitted
for the exit value 0), each naming the nodes concerned. -/
theorem end_nodes_reported {w : EndWorld} {db : DB} {now : Int} {kc : Bool} {jid : Nat} {exit : Option Int} {hosts : List String}
    {j : JobRow} (hj : db.job? jid = some j) (he : Executing j.state) (hp : w.epilogue ≠ .failed ∧ w.epilogue ≠ .timeout) :
    ∃ tail, (endOfJob w db now kc jid exit 0 hosts).1.events = db.events ++ ⟨"SWITCH_INTO_TERMINATE_STATE", jid, true, []⟩ :: tail ∧
      ∀ e, e ∈ tail ↔ NodeReport w jid j.types e := by
  refine ⟨registered jid (cleanEvents w j.types ++ pingEvents w j.types), ?_, cleaned_events w jid j.types⟩
  have hep : epilogueEvents w.epilogue = [] := by
    cases hw : w.epilogue <;> rw [hw] at hp <;> simp [epilogueEvents] at hp ⊢
  have hev : ∀ d, (endResubmit d now kc j 0) = (d, ["SWITCH_INTO_TERMINATE_STATE"]) := by
    intro d; rfl
  have hm : (endMarks db now jid exit).events = db.events := by
    unfold endMarks
    cases exit <;> simp [DB.updJob, setFinish, setJobState] <;> (repeat' split) <;> rfl
  unfold endOfJob
  rw [hj]
  dsimp only
  rw [if_pos (show _ ∨ _ from he), if_neg (by simp [namesHost]), finishSeq_eq, hev, hep]
  dsimp only
  rw [hm]
  rfl

/-- The hypotheses are met: the execution of the job of the examples ends, one node is not cleaned and the other one is silent. -/
example : (∃ j, (run exW exDbL 1 {}).db.job? 1 = some j ∧ Executing j.state) ∧
    (endOfJob { exEnd with clean := (true, ["n1"]), pingAtEnd := true, ping := (true, ["n2"]) } (run exW exDbL 1 {}).db 20 false 1 (some 0) 0
      ["n1", "n2"]).1.events = [⟨"SWITCH_INTO_TERMINATE_STATE", 1, true, []⟩, ⟨"CPUSET_CLEAN_ERROR", 1, true, ["n1"]⟩,
        ⟨"PING_CHECKER_NODE_SUSPECTED_END_JOB", 1, true, ["n2"]⟩] := by
  refine ⟨?_, by decide⟩
  cases h : (run exW exDbL 1 {}).db.job? 1 with
  | none => exact absurd h (by decide)
  | some j =>
    refine ⟨j, rfl, Or.inl ?_⟩
    have : (run exW exDbL 1 {}).db.stateOf 1 = some "Running" := by decide
    unfold DB.stateOf at this
    rw [h] at this
    exact Option.some.inj this

end Oar.Bipbip
