import Verif.Bipbip
import Verif.JobsEvents

/-!
# The launch of a job

Theorems about `oar/modules/bipbip.py` (model in `Verif.Bipbip`).
-/

namespace Oar.Bipbip

open Oar.Jobs

/-- The start of oarexec on some node. -/
def IsOarexec (a : Act) : Bool :=
  match a with
  | .oarexec _ => true
  | _ => false

/-- Nothing else happens during the launch. -/
def World.Alone (w : World) : Prop := ∀ i d, w.env i d = d

theorem run_cases (w : World) (db : DB) (jid : Nat) (a : Args) :
    (run w db jid a = ⟨db, [], 1, false⟩ ∧
      (jid = 0 ∨ ∃ j, db.job? jid = some j ∧ j.state ≠ "toLaunch" ∧
        (a.exit = none ∨ (j.state ≠ "Launching" ∧ j.state ≠ "Running" ∧ j.state ≠ "Suspended" ∧ j.state ≠ "Resuming")))) ∨
    (run w db jid a = ⟨db, [], 0, true⟩ ∧ jid ≠ 0 ∧ db.job? jid = none) ∨
    (∃ j e, jid ≠ 0 ∧ db.job? jid = some j ∧ a.exit = some e ∧
      (j.state = "Launching" ∨ j.state = "Running" ∨ j.state = "Suspended" ∨ j.state = "Resuming") ∧
      run w db jid a = reattach w db j a e) ∨
    (∃ j, jid ≠ 0 ∧ db.job? jid = some j ∧ j.state = "toLaunch" ∧ run w db jid a = launchJob w db j) := by
  unfold run
  by_cases h0 : jid = 0
  · rw [if_pos h0]; exact Or.inl ⟨rfl, Or.inl h0⟩
  rw [if_neg h0]
  cases hj : db.job? jid with
  | none => exact Or.inr (Or.inl ⟨rfl, h0, rfl⟩)
  | some j =>
    dsimp only
    by_cases hc : a.exit ≠ none ∧ (j.state = "Launching" ∨ j.state = "Running" ∨ j.state = "Suspended" ∨ j.state = "Resuming")
    · rw [if_pos hc]
      obtain ⟨h1, h2⟩ := hc
      cases he : a.exit with
      | none => exact absurd he h1
      | some e => exact Or.inr (Or.inr (Or.inl ⟨j, e, h0, rfl, rfl, h2, rfl⟩))
    · rw [if_neg hc]
      by_cases ht : j.state = "toLaunch"
      · rw [if_pos ht]; exact Or.inr (Or.inr (Or.inr ⟨j, h0, rfl, ht, rfl⟩))
      · rw [if_neg ht]
        refine Or.inl ⟨rfl, Or.inr ⟨j, rfl, ht, ?_⟩⟩
        by_cases he : a.exit = none
        · exact Or.inl he
        · refine Or.inr ⟨?_, ?_, ?_, ?_⟩
          · exact fun e => hc ⟨he, Or.inl e⟩
          · exact fun e => hc ⟨he, Or.inr (Or.inl e)⟩
          · exact fun e => hc ⟨he, Or.inr (Or.inr (Or.inl e))⟩
          · exact fun e => hc ⟨he, Or.inr (Or.inr (Or.inr e))⟩

theorem reattach_acts (w : World) (db : DB) (j : JobRow) (a : Args) (e : Option Int) : (reattach w db j a e).acts = [] := by
  unfold reattach
  split
  · rfl
  · rfl
  · split
    · rfl
    · split <;> rfl

/-- Bipbip contacts nodes only for a job found in state toLaunch, whatever its arguments are and whatever the other parts of
the system do meanwhile. -/
theorem launch_only_toLaunch {w : World} {db : DB} {jid : Nat} {a : Args} (h : (run w db jid a).acts ≠ []) :
    ∃ j, db.job? jid = some j ∧ j.state = "toLaunch" := by
  rcases run_cases w db jid a with ⟨e, _⟩ | ⟨e, _⟩ | ⟨j, e', _, _, _, _, e⟩ | ⟨j, _, hj, hst, e⟩
  · rw [e] at h; exact absurd rfl h
  · rw [e] at h; exact absurd rfl h
  · rw [e, reattach_acts] at h; exact absurd rfl h
  · exact ⟨j, hj, hst⟩

/-- Without the end of an execution to treat, bipbip does nothing to a job that is not in state toLaunch. -/
theorem not_toLaunch_untouched {w : World} {db : DB} {jid : Nat} {j : JobRow} (hj : db.job? jid = some j)
    (hst : j.state ≠ "toLaunch") {a : Args} (ha : a.exit = none) : run w db jid a = ⟨db, [], 1, false⟩ := by
  rcases run_cases w db jid a with ⟨e, _⟩ | ⟨_, _, e⟩ | ⟨_, _, _, _, e, _⟩ | ⟨k, _, hk, hs, _⟩
  · exact e
  · rw [hj] at e; exact absurd e (by simp)
  · rw [ha] at e; exact absurd e (by simp)
  · rw [hj] at hk; exact absurd ((Option.some.inj hk) ▸ hs) hst

/-! ## The remote commands -/

theorem judge_acts (db : DB) (acts : List Act) (hosts : List String) (j : JobRow) (bad : List String) (ev : String) :
    (judge db acts hosts j bad ev).acts = acts := by
  unfold judge
  repeat' split
  all_goals rfl

theorem judge_hosts (db : DB) (acts : List Act) (hosts : List String) (j : JobRow) (bad : List String) (ev : String) :
    (judge db acts hosts j bad ev).hosts = hosts := by
  unfold judge
  repeat' split
  all_goals rfl

theorem cpusetPart_noexec (w : World) (db : DB) (j : JobRow) : (cpusetPart w db j).acts.filter IsOarexec = [] := by
  unfold cpusetPart
  repeat' split
  all_goals rfl

theorem checkNodes_noexec (w : World) (db : DB) (j : JobRow) : (checkNodes w db j).acts.filter IsOarexec = [] := by
  unfold checkNodes
  split
  · dsimp only
    split
    · rw [judge_acts, List.filter_append, cpusetPart_noexec]; rfl
    · rw [judge_acts, cpusetPart_noexec]
  · rfl

theorem prologueActs_noexec (r : Script) : (prologueActs r).filter IsOarexec = [] := by
  unfold prologueActs
  split <;> rfl

/-- The commands of the last part: those before it and at most one start of oarexec, on the head node. -/
theorem launch_acts (w : World) (db : DB) (j : JobRow) (hosts : List String) (acts : List Act) (code : Nat) :
    (launch w db j hosts acts code).acts.filter IsOarexec = acts.filter IsOarexec ++
      if "noop" ∈ j.types then [] else [.oarexec (headNode w j hosts)] := by
  unfold launch
  split
  · simp
  · split
    · dsimp only
      rw [List.filter_append, List.filter_append]
      split <;> simp [IsOarexec]
    · dsimp only
      rw [List.filter_append]
      simp [IsOarexec]

theorem launchJob_execs (w : World) (db : DB) (j : JobRow) : (launchJob w db j).acts.filter IsOarexec =
    if (checkNodes w (w.env 1 (setJobState db w.now1 j.id "Launching")) j).verdict = .go ∧ "noop" ∉ j.types then
      [.oarexec (headNode w j (checkNodes w (w.env 1 (setJobState db w.now1 j.id "Launching")) j).hosts)] else [] := by
  unfold launchJob
  dsimp only
  have hn := checkNodes_noexec w (w.env 1 (setJobState db w.now1 j.id "Launching")) j
  generalize checkNodes w (w.env 1 (setJobState db w.now1 j.id "Launching")) j = c at *
  cases hv : c.verdict with
  | go =>
    dsimp only
    unfold afterChecks
    dsimp only
    rw [launch_acts, List.filter_append, List.filter_append, hn, prologueActs_noexec, prologueActs_noexec]
    by_cases hno : "noop" ∈ j.types
    · rw [if_pos hno, if_neg (by simp [hno])]; rfl
    · rw [if_neg hno, if_pos ⟨rfl, hno⟩]; rfl
  | stop => rw [if_neg (by simp)]; exact hn
  | raise => rw [if_neg (by simp)]; exact hn

/-- Whatever happens, a run of bipbip starts oarexec at most once. -/
theorem oarexec_once (w : World) (db : DB) (jid : Nat) (a : Args) : ((run w db jid a).acts.filter IsOarexec).length ≤ 1 := by
  rcases run_cases w db jid a with ⟨e, _⟩ | ⟨e, _⟩ | ⟨j, e', _, _, _, _, e⟩ | ⟨j, _, hj, hst, e⟩
  · rw [e]; exact Nat.zero_le _
  · rw [e]; exact Nat.zero_le _
  · rw [e, reattach_acts]; exact Nat.zero_le _
  · rw [e, launchJob_execs]
    split <;> simp

theorem oarexec_filter {n : String} {l : List Act} : Act.oarexec n ∈ l ↔ Act.oarexec n ∈ l.filter IsOarexec := by
  rw [List.mem_filter]
  exact ⟨fun h => ⟨h, rfl⟩, fun h => h.1⟩

/-- The jobs whose nodes are checked before the launch: neither deploy nor cosystem, with hosts. -/
def Ordinary (w : World) (j : JobRow) : Prop := "deploy" ∉ j.types ∧ "cosystem" ∉ j.types ∧ w.hosts ≠ []

/-- The checks of an ordinary job that is not a reservation succeed only if the cpusets could be created on all the nodes
(or the command for that did not answer) and all the nodes answered the ping. -/
theorem checkNodes_go {w : World} {db : DB} {j : JobRow} (ho : Ordinary w j) (hr : j.reservation = "None")
    (h : (checkNodes w db j).verdict = .go) :
    (checkNodes w db j).hosts = w.hosts ∧ Act.ping w.hosts ∈ (checkNodes w db j).acts ∧ w.ping = (true, []) ∧
      (w.cpusetNodes = [] ∨ w.init.1 = false ∨ w.init.2 = []) := by
  have hh : (cpusetPart w db j).hosts = w.hosts := by
    unfold cpusetPart
    repeat' split
    all_goals first | rfl | (rename_i hc; exact absurd hr hc)
  have hb : (cpusetPart w db j).bad = [] → (w.cpusetNodes = [] ∨ w.init.1 = false ∨ w.init.2 = []) := by
    unfold cpusetPart
    split
    · rename_i h1; exact fun _ => Or.inl h1
    split
    · rename_i h1; exact fun _ => Or.inr (Or.inl h1)
    split
    · rename_i h1
      split
      · rename_i h2; exact absurd hr h2
      · intro h3
        exact Or.inr (Or.inr (List.append_eq_nil_iff.1 h3).1)
    · exact fun h3 => Or.inr (Or.inr h3)
  have hj : ∀ db acts hosts bad ev, (judge db acts hosts j bad ev).verdict = .go → bad = [] := by
    intro db acts hosts bad ev hv
    unfold judge at hv
    split at hv
    · assumption
    · rw [if_neg (by simp [hr])] at hv
      exact absurd hv (by simp)
  have ho' : "deploy" ∉ j.types ∧ "cosystem" ∉ j.types ∧ w.hosts ≠ [] := ho
  unfold checkNodes at h ⊢
  rw [if_pos ho'] at h ⊢
  dsimp only at h ⊢
  by_cases hc : (cpusetPart w db j).bad = []
  · rw [if_pos hc] at h ⊢
    have h1 := hj _ _ _ _ _ h
    rw [judge_hosts, judge_acts, hh]
    refine ⟨rfl, by simp, ?_, hb hc⟩
    rw [hh] at h1
    unfold pingBad at h1
    split at h1
    · exact absurd h1 ho.2.2
    · rename_i h2
      cases hp : w.ping with
      | mk x y =>
        rw [hp] at h1 h2
        dsimp only at h1 h2
        rw [h1]
        cases x
        · exact absurd rfl h2
        · rfl
  · rw [if_neg hc] at h
    exact absurd (hj _ _ _ _ _ h) hc

/-- A job that is neither a reservation nor a deploy or cosystem job is started on its first node, only after all its nodes
answered the ping, and never when the creation of a cpuset failed on one of them; for every behaviour of the rest of the
system. (When the command that creates the cpusets does not answer, the job is started: see
`cpuset_unknown_launched_violated`.) -/
theorem oarexec_nodes_ok {w : World} {db : DB} {jid : Nat} {a : Args} {j : JobRow} (hj : db.job? jid = some j)
    (ho : Ordinary w j) (hr : j.reservation = "None") {n : String} (h : Act.oarexec n ∈ (run w db jid a).acts) :
    w.hosts.head? = some n ∧ Act.ping w.hosts ∈ (run w db jid a).acts ∧ w.ping = (true, []) ∧
      (w.cpusetNodes = [] ∨ w.init.1 = false ∨ w.init.2 = []) := by
  rcases run_cases w db jid a with ⟨e, _⟩ | ⟨e, _⟩ | ⟨j', e', _, _, _, _, e⟩ | ⟨k, _, hk, hst, e⟩
  · rw [e] at h; exact absurd h (by simp)
  · rw [e] at h; exact absurd h (by simp)
  · rw [e, reattach_acts] at h; exact absurd h (by simp)
  rw [hj] at hk
  obtain rfl := Option.some.inj hk
  rw [e] at h ⊢
  have h' := oarexec_filter.1 h
  rw [launchJob_execs] at h'
  split at h'
  · rename_i hv
    obtain ⟨h1, h2, h3, h4⟩ := checkNodes_go ho hr hv.1
    rw [h1] at h'
    refine ⟨?_, ?_, h3, h4⟩
    · have : n = headNode w j w.hosts := by simpa using h'
      rw [this]
      unfold headNode
      rw [if_neg (by simp [ho.2.1, ho.2.2]), if_neg ho.1]
      cases hh : w.hosts with
      | nil => exact absurd hh ho.2.2
      | cons x xs => rfl
    · have hacts : ∃ l, (launchJob w db j).acts = (checkNodes w (w.env 1 (setJobState db w.now1 j.id "Launching")) j).acts ++ l := by
        unfold launchJob
        dsimp only
        rw [hv.1]
        dsimp only
        unfold afterChecks
        dsimp only
        unfold launch
        split
        · exact ⟨_, by rw [List.append_assoc]⟩
        · split
          · exact ⟨_, by simp only [List.append_assoc]; rfl⟩
          · exact ⟨_, by simp only [List.append_assoc]; rfl⟩
      obtain ⟨l, hl⟩ := hacts
      rw [hl]
      exact List.mem_append_left _ h2
  · exact absurd h' (by simp)

end Oar.Bipbip
