import Verif.GretaCycle

/-!
# C37 (fourth part): histories of the energy saving module
-/

namespace Oar.Greta

open Oar.Tools

/-- C37: in a cycle, for each class whose nodes have one row each, enough nodes which are down and can be woken up are woken up now, or have a command in progress, or were asked
to be halted, to reach the minimum of idle nodes; or all those which can be are. -/
theorem keepalive_woken (ts : List (Nat × Nat)) (v : View) (s : St) (msg : Option (Cmd × List String)) (hrem : (keys s.remind).Nodup)
    (s' : St) (cmds : List (Cmd × String)) (sus : List String) (h : cycle ts v s msg = some (s', cmds, sus))
    (c : Nat × List (String × String × String)) (hc : c ∈ v.classes) (h1 : (c.2.map (·.1)).Nodup) (idle : List String) (hm : ∀ n, n ∈ idle ↔ Idle v c.2 n) :
    ∃ w : List String, w.Nodup ∧ (∀ n ∈ w, n ∈ v.can ∧ n ∈ c.2.map (·.1) ∧ ¬ (∃ st nx, (n, st, nx) ∈ c.2 ∧ (st = "Alive" ∨ nx = "Alive")) ∧
        ((.wakeup, n) ∈ cmds ∨ n ∈ keys s.running ∨ (n, .halt) ∈ s.remind ∨ ∃ ns, msg = some (.halt, ns) ∧ n ∈ ns)) ∧
      (c.1 ≤ idle.length + w.length ∨ ∀ n ∈ v.can, n ∈ c.2.map (·.1) → ¬ (∃ st nx, (n, st, nx) ∈ c.2 ∧ (st = "Alive" ∨ nx = "Alive")) → n ∈ w) := by
  obtain ⟨t, ht, hr, hmm, _, hcmd, hs, _⟩ := cycle_out ts v s _ hrem _ h
  dsimp only at hcmd hr hmm hs
  obtain ⟨_, _, l3, _, _, _⟩ := launch_spec (v.now + t) (processOf v s msg).1 (classesOf v)
  obtain ⟨_, _, _, p4, p5, _⟩ := process_spec v s msg hrem
  have down : ∀ n, n ∈ downOf c.2 ↔ n ∈ c.2.map (·.1) ∧ ¬ (∃ st nx, (n, st, nx) ∈ c.2 ∧ (st = "Alive" ∨ nx = "Alive")) := by
    intro n
    unfold downOf
    rw [List.mem_filter, ← mem_alive]
    simp
  have hlen : (idleOf v c.2).length ≤ idle.length :=
    List.Nodup.length_le_of_subset (idle_nodup v c.2 h1) (fun n hn => (hm n).2 ((mem_idle v c.2 n).1 hn))
  refine ⟨((downOf c.2).filter (fun n => v.can.contains n)).filter (fun n => decide (n ∈ keys (processOf v s msg).1 ∨ n ∈ keys s.running)), ?_, fun n hn => ?_, ?_⟩
  · exact (List.Sublist.trans List.filter_sublist (List.Sublist.trans List.filter_sublist List.filter_sublist)).nodup h1
  · rw [List.mem_filter, List.mem_filter, decide_eq_true_eq, List.contains_iff_mem] at hn
    obtain ⟨⟨hd, hcan⟩, hn⟩ := hn
    refine ⟨hcan, ((down n).1 hd).1, ((down n).1 hd).2, ?_⟩
    rcases hn with hn | hn
    · obtain ⟨⟨n', cc⟩, he, rfl⟩ := List.mem_map.1 hn
      cases cc with
      | wakeup => exact Or.inl (hcmd ▸ l3 _ he)
      | halt =>
        rcases p4 _ he with ⟨h, _⟩ | h | h
        · cases h
        · exact Or.inr (Or.inr (Or.inl h))
        · exact Or.inr (Or.inr (Or.inr h))
    · exact Or.inr (Or.inl hn)
  · rcases p5 c hc with h | h
    · left
      omega
    · right
      intro n hcan hn hd
      rw [List.mem_filter, List.mem_filter, decide_eq_true_eq, List.contains_iff_mem]
      have hdn := (down n).2 ⟨hn, hd⟩
      exact ⟨⟨hdn, hcan⟩, h n hdn hcan⟩

/-! ## Histories -/

/-- A history of Greta: turns of its loop (whatever is read in the database, the exit codes of the executors and the messages), restarts after which the state saved is loaded; with the
commands launched. -/
inductive Run (ts : List (Nat × Nat)) (window : Int) : St → List (Cmd × String) → St → Prop
  | nil (s : St) : Run ts window s [] s
  | turn (s : St) (c : List (Cmd × String)) (s1 : St) (st : List (Option Int)) (v : View) (msg : Option (Cmd × List String)) (s2 : St) (c' : List (Cmd × String)) (sus : List String) :
      Run ts window s c s1 → turn ts window st v s1 msg = some (s2, c', sus) → Run ts window s (c ++ c') s2
  | restart (s : St) (c : List (Cmd × String)) (s1 : St) : Run ts window s c s1 → Run ts window s c (restart s1)

def empty : St := ⟨[], [], []⟩

/-- The nodes which have an executor halting them. -/
def haltsOf (ex : List (String × Cmd × Int)) : List String := (ex.filter (fun e => e.2.1 = .halt)).map (·.1)

theorem haltsOf_cons (n : String) (c : Cmd) (d : Int) (l : List (String × Cmd × Int)) : haltsOf ((n, c, d) :: l) = if c = .halt then n :: haltsOf l else haltsOf l := by
  unfold haltsOf
  by_cases h : c = .halt
  · rw [if_pos h, List.filter_cons_of_pos (by simpa using h)]
    rfl
  · rw [if_neg h, List.filter_cons_of_neg (by simpa using h)]

/-- What the check of the executors does. -/
theorem checkExec_spec (window now : Int) (ex : List (String × Cmd × Int)) : ∀ (st : List (Option Int)) (run : List (String × Cmd × Int)) (r : List (String × Cmd × Int) × List (String × Cmd × Int) × List String),
    checkExec window now ex st run = some r → r.1.Sublist run ∧ r.2.1.Sublist ex ∧ (∀ e ∈ run, e.1 ∉ haltsOf ex → e ∈ r.1) := by
  induction ex with
  | nil =>
    intro st run r h
    cases h
    exact ⟨List.Sublist.refl _, List.Sublist.refl _, fun e he _ => he⟩
  | cons x l ih =>
    intro st run r h
    obtain ⟨n, c, d⟩ := x
    rw [haltsOf_cons]
    have keepCase : ∀ r', checkExec window now l st.tail run = some r' → r.1 = r'.1 → r.2.1.Sublist ((n, c, d) :: r'.2.1) →
        r.1.Sublist run ∧ r.2.1.Sublist ((n, c, d) :: l) ∧ (∀ e ∈ run, e.1 ∉ (if c = .halt then n :: haltsOf l else haltsOf l) → e ∈ r.1) := by
      intro r' hr' e1 e2
      obtain ⟨a, b, g⟩ := ih _ _ _ hr'
      refine ⟨e1 ▸ a, e2.trans (b.cons_cons _), fun e he hne => e1 ▸ g e he (fun hc => hne ?_)⟩
      split
      · exact List.mem_cons_of_mem _ hc
      · exact hc
    have dropCase : ∀ r', c = .halt → checkExec window now l st.tail (run.filter (fun x => x.1 ≠ n)) = some r' → r.1 = r'.1 → r.2.1 = r'.2.1 →
        r.1.Sublist run ∧ r.2.1.Sublist ((n, c, d) :: l) ∧ (∀ e ∈ run, e.1 ∉ (if c = .halt then n :: haltsOf l else haltsOf l) → e ∈ r.1) := by
      intro r' hc hr' e1 e2
      obtain ⟨a, b, g⟩ := ih _ _ _ hr'
      refine ⟨e1 ▸ a.trans List.filter_sublist, e2 ▸ b.cons _, fun e he hne => ?_⟩
      rw [if_pos hc, List.mem_cons, not_or] at hne
      exact e1 ▸ g e (List.mem_filter.2 ⟨he, by simpa using hne.1⟩) hne.2
    unfold checkExec at h
    cases hs : st.headD none with
    | some e =>
      rw [hs] at h
      dsimp only at h
      by_cases he : e ≠ 0
      · rw [if_pos he] at h
        obtain ⟨r', hr', e'⟩ := Option.map_eq_some_iff.1 h
        exact keepCase r' hr' (by rw [← e']) (by rw [← e']; exact List.sublist_cons_self _ _)
      · rw [if_neg he] at h
        by_cases hc : c = .halt
        · rw [if_pos hc] at h
          by_cases hk : (keys run).contains n = true
          · rw [if_pos hk] at h
            exact dropCase r hc h rfl rfl
          · rw [if_neg hk] at h
            cases h
        · rw [if_neg hc] at h
          exact keepCase r h rfl (List.sublist_cons_self _ _)
    | none =>
      rw [hs] at h
      dsimp only at h
      by_cases hw : now - d > window
      · rw [if_pos hw] at h
        by_cases hc : c = .halt
        · rw [if_pos hc] at h
          by_cases hk : (keys run).contains n = true
          · rw [if_pos hk] at h
            obtain ⟨r', hr', e'⟩ := Option.map_eq_some_iff.1 h
            exact dropCase r' hc hr' (by rw [← e']) (by rw [← e'])
          · rw [if_neg hk] at h
            cases h
        · rw [if_neg hc] at h
          exact keepCase r h rfl (List.sublist_cons_self _ _)
      · rw [if_neg hw] at h
        obtain ⟨r', hr', e'⟩ := Option.map_eq_some_iff.1 h
        exact keepCase r' hr' (by rw [← e']) (by rw [← e']; exact List.Sublist.refl _)

theorem haltsOf_sub {a b : List (String × Cmd × Int)} (h : a.Sublist b) : (haltsOf a).Sublist (haltsOf b) := List.Sublist.map _ (h.filter _)

/-- Without two executors halting the same node, and when the nodes being halted are in progress, no exception is raised and this is kept. -/
theorem checkExec_total (window now : Int) (ex : List (String × Cmd × Int)) : ∀ (st : List (Option Int)) (run : List (String × Cmd × Int)),
    (haltsOf ex).Nodup → (∀ n ∈ haltsOf ex, ∃ d, (n, Cmd.halt, d) ∈ run) →
    ∃ r, checkExec window now ex st run = some r ∧ ∀ n ∈ haltsOf r.2.1, ∃ d, (n, Cmd.halt, d) ∈ r.1 := by
  induction ex with
  | nil =>
    intro st run _ h2
    exact ⟨(run, [], []), rfl, h2⟩
  | cons x l ih =>
    intro st run h1 h2
    obtain ⟨n, c, d⟩ := x
    rw [haltsOf_cons] at h1 h2
    have keep : ∃ r, checkExec window now l st.tail run = some r ∧ (∀ m ∈ haltsOf r.2.1, ∃ d, (m, Cmd.halt, d) ∈ r.1) ∧
        ∀ m ∈ haltsOf ((n, c, d) :: r.2.1), ∃ d, (m, Cmd.halt, d) ∈ r.1 := by
      have hl1 : (haltsOf l).Nodup := by
        split at h1
        · exact (List.nodup_cons.1 h1).2
        · exact h1
      have hl2 : ∀ m ∈ haltsOf l, ∃ d, (m, Cmd.halt, d) ∈ run := by
        intro m hm
        apply h2
        split
        · exact List.mem_cons_of_mem _ hm
        · exact hm
      obtain ⟨r, hr, hr'⟩ := ih st.tail run hl1 hl2
      refine ⟨r, hr, hr', fun m hm => ?_⟩
      rw [haltsOf_cons] at hm
      by_cases hc : c = .halt
      · rw [if_pos hc] at h1 h2 hm
        rcases List.mem_cons.1 hm with rfl | hm
        · obtain ⟨d', hd'⟩ := h2 m (by simp)
          exact ⟨d', (checkExec_spec _ _ _ _ _ _ hr).2.2 _ hd' (List.nodup_cons.1 h1).1⟩
        · exact hr' m hm
      · rw [if_neg hc] at hm
        exact hr' m hm
    have drop : c = .halt → ((keys run).contains n = true) ∧ ∃ r, checkExec window now l st.tail (run.filter (fun x => x.1 ≠ n)) = some r ∧ (∀ m ∈ haltsOf r.2.1, ∃ d, (m, Cmd.halt, d) ∈ r.1) := by
      intro hc
      rw [if_pos hc] at h1 h2
      obtain ⟨hn1, hn2⟩ := List.nodup_cons.1 h1
      constructor
      · obtain ⟨d', hd'⟩ := h2 n (by simp)
        rw [List.contains_iff_mem]
        exact List.mem_map.2 ⟨_, hd', rfl⟩
      · refine ih st.tail _ hn2 (fun m hm => ?_)
        obtain ⟨d', hd'⟩ := h2 m (List.mem_cons_of_mem _ hm)
        refine ⟨d', List.mem_filter.2 ⟨hd', ?_⟩⟩
        have : m ≠ n := fun e => hn1 (e ▸ hm)
        simpa using this
    obtain ⟨k, hk, hk', hk''⟩ := keep
    unfold checkExec
    cases hs : st.headD none with
    | some e =>
      dsimp only
      by_cases he : e ≠ 0
      · rw [if_pos he, hk]
        exact ⟨_, rfl, hk'⟩
      · rw [if_neg he]
        by_cases hc : c = .halt
        · obtain ⟨g, r, hr, hr'⟩ := drop hc
          rw [if_pos hc, if_pos g]
          exact ⟨r, hr, hr'⟩
        · rw [if_neg hc]
          exact ⟨k, hk, hk'⟩
    | none =>
      dsimp only
      by_cases hw : now - d > window
      · rw [if_pos hw]
        by_cases hc : c = .halt
        · obtain ⟨g, r, hr, hr'⟩ := drop hc
          rw [if_pos hc, if_pos g, hr]
          exact ⟨_, rfl, hr'⟩
        · rw [if_neg hc]
          exact ⟨k, hk, hk'⟩
      · rw [if_neg hw, hk]
        exact ⟨_, rfl, hk''⟩

/-- The invariant of Greta. -/
structure Ok (s : St) : Prop where
  run : (keys s.running).Nodup
  rem : (keys s.remind).Nodup
  halts : (haltsOf s.exec).Nodup
  inRun : ∀ n ∈ haltsOf s.exec, ∃ d, (n, Cmd.halt, d) ∈ s.running

theorem haltsOf_append (a b : List (String × Cmd × Int)) : haltsOf (a ++ b) = haltsOf a ++ haltsOf b := by
  unfold haltsOf
  rw [List.filter_append, List.map_append]

theorem haltsOf_cmds (cmds : List (Cmd × String)) (d : Int) : haltsOf (cmds.map (fun c => (c.2, c.1, d))) = halted cmds := by
  induction cmds with
  | nil => rfl
  | cons c cmds ih =>
    obtain ⟨c, n⟩ := c
    rw [List.map_cons, haltsOf_cons, ih]
    cases c
    · simp [halted]
    · simp [halted]

theorem cycle_ok (ts : List (Nat × Nat)) (v : View) (s : St) (msg : Option (Cmd × List String)) (hs : Ok s)
    (s' : St) (cmds : List (Cmd × String)) (sus : List String) (h : cycle ts v s msg = some (s', cmds, sus)) : Ok s' := by
  obtain ⟨o1, o2, o3, o4, o5⟩ := one_command ts v s msg hs.rem hs.run s' cmds sus h
  obtain ⟨t, ht, hr, hm, hex, hcmd, _, hn, hd⟩ := cycle_out ts v s msg hs.rem _ h
  dsimp only at hr hm hcmd hex
  refine ⟨o3, o4, ?_, ?_⟩
  · rw [hex, haltsOf_append, haltsOf_cmds, List.nodup_append]
    refine ⟨hs.halts, ?_, fun a ha b hb e => ?_⟩
    · unfold halted
      exact (List.Sublist.map _ List.filter_sublist).nodup o1
    · subst e
      obtain ⟨d, hd'⟩ := hs.inRun a ha
      cases (o2 _ ((mem_halted _ _).1 hb) _ hd' rfl).1
  · intro n hn'
    rw [hex, haltsOf_append, haltsOf_cmds, List.mem_append] at hn'
    rcases hn' with hn' | hn'
    · obtain ⟨d, hd'⟩ := hs.inRun n hn'
      exact (o5 n .halt).2 (Or.inr ⟨d, hd', fun hc => by cases hc.1⟩)
    · exact (o5 n .halt).2 (Or.inl ((mem_halted _ _).1 hn'))

theorem turn_split {ts : List (Nat × Nat)} {window : Int} {st : List (Option Int)} {v : View} {s : St} {msg : Option (Cmd × List String)} {s' : St} {cmds : List (Cmd × String)} {sus : List String}
    (h : turn ts window st v s msg = some (s', cmds, sus)) : ∃ r sus', checkExec window v.now s.exec st s.running = some r ∧ cycle ts v ⟨r.1, s.remind, r.2.1⟩ msg = some (s', cmds, sus') := by
  unfold turn at h
  cases hc : checkExec window v.now s.exec st s.running with
  | none =>
    rw [hc] at h
    cases h
  | some r =>
    rw [hc] at h
    dsimp only at h
    obtain ⟨⟨x1, x2, x3⟩, hx, e⟩ := Option.map_eq_some_iff.1 h
    cases e
    exact ⟨r, x3, rfl, hx⟩

theorem checked_ok (window now : Int) (s : St) (hs : Ok s) (st : List (Option Int)) (r : List (String × Cmd × Int) × List (String × Cmd × Int) × List String)
    (h : checkExec window now s.exec st s.running = some r) : Ok ⟨r.1, s.remind, r.2.1⟩ := by
  obtain ⟨a, b, _⟩ := checkExec_spec _ _ _ _ _ _ h
  obtain ⟨r', hr', hi⟩ := checkExec_total window now s.exec st s.running hs.halts hs.inRun
  rw [h] at hr'
  cases hr'
  exact ⟨(a.map _).nodup hs.run, hs.rem, (haltsOf_sub b).nodup hs.halts, hi⟩

theorem run_ok {ts : List (Nat × Nat)} {window : Int} {s s' : St} {c : List (Cmd × String)} (h : Run ts window s c s') (hs : Ok s) : Ok s' := by
  induction h with
  | nil => exact hs
  | turn c s1 st v msg s2 c' sus _ ht ih =>
    obtain ⟨r, sus', h1, h2⟩ := turn_split ht
    exact cycle_ok ts v _ msg (checked_ok _ _ _ ih _ _ h1) _ _ _ h2
  | restart c s1 _ ih =>
    exact ⟨ih.run, ih.rem, List.nodup_nil, fun n hn => by cases hn⟩

theorem empty_ok : Ok empty := ⟨List.nodup_nil, List.nodup_nil, List.nodup_nil, fun n hn => by cases hn⟩

/-- C37: whatever the history, a turn of the loop raises no exception when there is a timeout for one node, and always raises one otherwise. -/
theorem no_exception (ts : List (Nat × Nat)) (window : Int) (c : List (Cmd × String)) (s : St) (h : Run ts window empty c s) (st : List (Option Int)) (v : View)
    (msg : Option (Cmd × List String)) : turn ts window st v s msg = none ↔ ∀ x ∈ ts, x.1 ≠ 1 := by
  have hs := run_ok h empty_ok
  obtain ⟨r, hr, hi⟩ := checkExec_total window v.now s.exec st s.running hs.halts hs.inRun
  unfold turn
  rw [hr]
  dsimp only
  rw [Option.map_eq_none_iff]
  unfold cycle
  dsimp only
  rw [Option.map_eq_none_iff]
  exact (timeout_spec ts _).1

/-- C37: whatever the history, at most one command is in progress for a node, and a turn launches at most one command for a node. -/
theorem one_command_always (ts : List (Nat × Nat)) (window : Int) (c : List (Cmd × String)) (s : St) (h : Run ts window empty c s) (st : List (Option Int)) (v : View)
    (msg : Option (Cmd × List String)) (s' : St) (cmds : List (Cmd × String)) (sus : List String) (ht : turn ts window st v s msg = some (s', cmds, sus)) :
    (cmds.map (·.2)).Nodup ∧ (keys s'.running).Nodup ∧ ∀ x ∈ cmds, ∀ d, (x.2, Cmd.halt, d) ∈ s.running → ∃ d', (x.2, Cmd.halt, d') ∈ s.exec := by
  have hs := run_ok h empty_ok
  obtain ⟨r, sus', h1, h2⟩ := turn_split ht
  have hr := checked_ok _ _ _ hs _ _ h1
  obtain ⟨o1, o2, o3, _⟩ := one_command ts v _ msg hr.rem hr.run s' cmds sus' h2
  refine ⟨o1, o3, fun x hx d hd => ?_⟩
  apply Classical.byContradiction
  intro hno
  have hin := (checkExec_spec _ _ _ _ _ _ h1).2.2 _ hd (fun hc => by
    obtain ⟨⟨n, cc, d'⟩, he, e⟩ := List.mem_map.1 hc
    rw [List.mem_filter] at he
    have : cc = .halt := by simpa using he.2
    subst this
    dsimp only at e
    subst e
    exact hno ⟨d', he.1⟩)
  cases (o2 x hx _ hin rfl).1

/-- A node whose halt is in progress without any executor. -/
def Stuck (s : St) (n : String) : Prop := (∃ d, (n, Cmd.halt, d) ∈ s.running) ∧ n ∉ haltsOf s.exec

theorem stuck_turn (ts : List (Nat × Nat)) (window : Int) (s : St) (hs : Ok s) (st : List (Option Int)) (v : View) (msg : Option (Cmd × List String))
    (s' : St) (cmds : List (Cmd × String)) (sus : List String) (ht : turn ts window st v s msg = some (s', cmds, sus)) (n : String) (hn : Stuck s n) :
    Stuck s' n ∧ ∀ c, (c, n) ∉ cmds := by
  obtain ⟨r, sus', h1, h2⟩ := turn_split ht
  have hr := checked_ok _ _ _ hs _ _ h1
  obtain ⟨a, b, g⟩ := checkExec_spec _ _ _ _ _ _ h1
  obtain ⟨o1, o2, o3, o4, o5⟩ := one_command ts v _ msg hr.rem hr.run s' cmds sus' h2
  obtain ⟨t, _, _, _, hex, _⟩ := cycle_out ts v _ msg hr.rem _ h2
  obtain ⟨⟨d, hd⟩, hne⟩ := hn
  have hin := g _ hd hne
  have hno : ∀ c, (c, n) ∉ cmds := by
    intro c hc
    cases (o2 _ hc _ hin rfl).1
  refine ⟨⟨(o5 n .halt).2 (Or.inr ⟨d, hin, fun hc => by cases hc.1⟩), ?_⟩, hno⟩
  rw [hex, haltsOf_append, haltsOf_cmds, List.mem_append, not_or]
  exact ⟨fun hc => hne ((haltsOf_sub b).subset hc), fun hc => hno _ ((mem_halted _ _).1 hc)⟩

theorem stuck_run {ts : List (Nat × Nat)} {window : Int} {s s' : St} {c : List (Cmd × String)} (h : Run ts window s c s') (hs : Ok s) (n : String) (hn : Stuck s n) :
    Stuck s' n ∧ ∀ k, (k, n) ∉ c := by
  induction h with
  | nil => exact ⟨hn, by simp⟩
  | turn c s1 st v msg s2 c' sus hrun ht ih =>
    obtain ⟨i1, i2⟩ := ih
    obtain ⟨j1, j2⟩ := stuck_turn ts window s1 (run_ok hrun hs) st v msg s2 c' sus ht n i1
    refine ⟨j1, fun k hk => ?_⟩
    rcases List.mem_append.1 hk with h | h
    · exact i2 k h
    · exact j2 k h
  | restart c s1 _ ih => exact ⟨⟨ih.1.1, by simp [haltsOf, restart]⟩, ih.2⟩

/-- C37 does not hold in full: when Greta restarts (it does so by itself after ENERGY_MAX_CYCLES_UNTIL_REFRESH cycles) while a node is being halted, whatever
happens afterwards no command is ever launched for this node: it is not woken up any more. -/
theorem halt_forgotten_violated (ts : List (Nat × Nat)) (window : Int) (c : List (Cmd × String)) (s : St) (h : Run ts window empty c s) (n : String) (d : Int) (hd : (n, Cmd.halt, d) ∈ s.running)
    (c' : List (Cmd × String)) (s' : St) (h' : Run ts window (restart s) c' s') : (∀ k, (k, n) ∉ c') ∧ ∃ d', (n, Cmd.halt, d') ∈ s'.running := by
  have hs := run_ok (Run.restart _ _ _ h) empty_ok
  have := stuck_run h' hs n ⟨⟨d, hd⟩, by simp [haltsOf, restart]⟩
  exact ⟨this.2, this.1.1⟩

/-- The node of an executor which fails is not removed from those in progress. -/
theorem failed_stuck (window now : Int) (n : String) (d : Int) (e : Int) (he : e ≠ 0) (l : List (String × Cmd × Int)) : ∀ (pre : List (String × Cmd × Int)) (st : List (Option Int)) (run : List (String × Cmd × Int))
    (r : List (String × Cmd × Int) × List (String × Cmd × Int) × List String), (haltsOf (pre ++ (n, Cmd.halt, d) :: l)).Nodup → st.drop pre.length = some e :: st.drop (pre.length + 1) →
    (∃ d, (n, Cmd.halt, d) ∈ run) → checkExec window now (pre ++ (n, Cmd.halt, d) :: l) st run = some r → (∃ d, (n, Cmd.halt, d) ∈ r.1) ∧ n ∉ haltsOf r.2.1 := by
  intro pre
  induction pre with
  | nil =>
    intro st run r hnd hst hin h
    rw [List.nil_append, haltsOf_cons, if_pos rfl, List.nodup_cons] at hnd
    rw [List.nil_append] at h
    have hhead : st.headD none = some e := by
      cases st with
      | nil => cases hst
      | cons a st => simp only [List.length_nil, List.drop_zero, List.cons.injEq] at hst; rw [hst.1]; rfl
    unfold checkExec at h
    rw [hhead] at h
    dsimp only at h
    rw [if_pos he] at h
    obtain ⟨r', hr', e'⟩ := Option.map_eq_some_iff.1 h
    obtain ⟨a, b, g⟩ := checkExec_spec _ _ _ _ _ _ hr'
    obtain ⟨d', hd'⟩ := hin
    rw [← e']
    exact ⟨⟨d', g _ hd' hnd.1⟩, fun hc => hnd.1 ((haltsOf_sub b).subset hc)⟩
  | cons x pre ih =>
    intro st run r hnd hst hin h
    obtain ⟨m, c, dm⟩ := x
    rw [List.cons_append, haltsOf_cons] at hnd
    have hst' : st.tail.drop pre.length = some e :: st.tail.drop (pre.length + 1) := by
      rw [List.drop_tail, List.drop_tail]
      exact hst
    have hnd' : (haltsOf (pre ++ (n, Cmd.halt, d) :: l)).Nodup := by
      split at hnd
      · exact (List.nodup_cons.1 hnd).2
      · exact hnd
    have hnin : n ∈ haltsOf (pre ++ (n, Cmd.halt, d) :: l) := by
      rw [haltsOf_append, haltsOf_cons, if_pos rfl]
      simp
    rw [List.cons_append] at h
    have filt : c = .halt → ∃ d, (n, Cmd.halt, d) ∈ run.filter (fun x => x.1 ≠ m) := by
      intro hc
      rw [if_pos hc, List.nodup_cons] at hnd
      obtain ⟨d', hd'⟩ := hin
      refine ⟨d', List.mem_filter.2 ⟨hd', ?_⟩⟩
      have : n ≠ m := fun e => hnd.1 (e ▸ hnin)
      simpa using this
    have hm : c = .halt → n ≠ m := by
      intro hc
      rw [if_pos hc, List.nodup_cons] at hnd
      exact fun e => hnd.1 (e ▸ hnin)
    unfold checkExec at h
    cases hs : st.headD none with
    | some ex =>
      rw [hs] at h
      dsimp only at h
      by_cases hex : ex ≠ 0
      · rw [if_pos hex] at h
        obtain ⟨r', hr', e'⟩ := Option.map_eq_some_iff.1 h
        rw [← e']
        exact ih st.tail run r' hnd' hst' hin hr'
      · rw [if_neg hex] at h
        by_cases hc : c = .halt
        · rw [if_pos hc] at h
          by_cases hk : (keys run).contains m = true
          · rw [if_pos hk] at h
            exact ih st.tail _ r hnd' hst' (filt hc) h
          · rw [if_neg hk] at h
            cases h
        · rw [if_neg hc] at h
          exact ih st.tail run r hnd' hst' hin h
    | none =>
      rw [hs] at h
      dsimp only at h
      by_cases hw : now - dm > window
      · rw [if_pos hw] at h
        by_cases hc : c = .halt
        · rw [if_pos hc] at h
          by_cases hk : (keys run).contains m = true
          · rw [if_pos hk] at h
            obtain ⟨r', hr', e'⟩ := Option.map_eq_some_iff.1 h
            rw [← e']
            exact ih st.tail _ r' hnd' hst' (filt hc) hr'
          · rw [if_neg hk] at h
            cases h
        · rw [if_neg hc] at h
          exact ih st.tail run r hnd' hst' hin h
      · rw [if_neg hw] at h
        obtain ⟨r', hr', e'⟩ := Option.map_eq_some_iff.1 h
        obtain ⟨q1, q2⟩ := ih st.tail run r' hnd' hst' hin hr'
        rw [← e']
        refine ⟨q1, ?_⟩
        show n ∉ haltsOf ((m, c, dm) :: r'.2.1)
        rw [haltsOf_cons]
        by_cases hc : c = .halt
        · rw [if_pos hc, List.mem_cons, not_or]
          exact ⟨hm hc, q2⟩
        · rw [if_neg hc]
          exact q2

/-- C37 does not hold in full: when the command halting a node fails, no command is ever launched any more for this node. -/
theorem halt_failed_violated (ts : List (Nat × Nat)) (window : Int) (c : List (Cmd × String)) (s : St) (h : Run ts window empty c s) (pre l : List (String × Cmd × Int)) (n : String) (d e : Int)
    (he : e ≠ 0) (hx : s.exec = pre ++ (n, Cmd.halt, d) :: l) (st : List (Option Int)) (hst : st.drop pre.length = some e :: st.drop (pre.length + 1)) (v : View)
    (msg : Option (Cmd × List String)) (s1 : St) (c1 : List (Cmd × String)) (sus : List String) (ht : turn ts window st v s msg = some (s1, c1, sus))
    (c' : List (Cmd × String)) (s' : St) (h' : Run ts window s1 c' s') : (∀ k, (k, n) ∉ c1 ++ c') ∧ ∃ d', (n, Cmd.halt, d') ∈ s'.running := by
  have hs := run_ok h empty_ok
  have hin : ∃ d, (n, Cmd.halt, d) ∈ s.running := by
    apply hs.inRun
    rw [hx, haltsOf_append, haltsOf_cons, if_pos rfl]
    simp
  obtain ⟨r, sus', h1, h2⟩ := turn_split ht
  have hr := checked_ok _ _ _ hs _ _ h1
  have hst' := failed_stuck window v.now n d e he l pre st s.running r (hx ▸ hs.halts) hst hin (hx ▸ h1)
  obtain ⟨o1, o2, o3, o4, o5⟩ := one_command ts v _ msg hr.rem hr.run s1 c1 sus' h2
  obtain ⟨t, _, _, _, hex, _⟩ := cycle_out ts v _ msg hr.rem _ h2
  obtain ⟨⟨d2, hd2⟩, hne⟩ := hst'
  have hno : ∀ c, (c, n) ∉ c1 := by
    intro k hk
    cases (o2 _ hk _ hd2 rfl).1
  have hstuck : Stuck s1 n := by
    refine ⟨(o5 n .halt).2 (Or.inr ⟨d2, hd2, fun hc => by cases hc.1⟩), ?_⟩
    rw [hex, haltsOf_append, haltsOf_cmds, List.mem_append, not_or]
    exact ⟨hne, fun hc => hno _ ((mem_halted _ _).1 hc)⟩
  have hs1 := run_ok (Run.turn _ _ _ _ _ _ _ _ _ h ht) empty_ok
  have := stuck_run h' hs1 n hstuck
  refine ⟨fun k hk => ?_, this.1.1⟩
  rcases List.mem_append.1 hk with hk | hk
  · exact hno k hk
  · exact this.2 k hk

/-- C37 does not hold in full: a remembered command is remembered for ever. -/
theorem reminder_kept_violated (ts : List (Nat × Nat)) (window : Int) (s : St) (hs : Ok s) (c : List (Cmd × String)) (s' : St) (h : Run ts window s c s') (n : String) (hn : n ∈ keys s.remind) :
    n ∈ keys s'.remind := by
  induction h with
  | nil => exact hn
  | turn c s1 st v msg s2 c' sus hrun ht ih =>
    obtain ⟨r, sus', h1, h2⟩ := turn_split ht
    have hr := checked_ok _ _ _ (run_ok hrun hs) _ _ h1
    obtain ⟨t, _, _, hm, _⟩ := cycle_out ts v _ msg hr.rem _ h2
    dsimp only at hm
    rw [hm]
    exact (process_spec v ⟨r.1, s1.remind, r.2.1⟩ msg hr.rem).2.2.2.2.2.1 n ih
  | restart c s1 _ ih => exact ih

/-- C37 does not hold in full: on each CHECK, a remembered HALT is executed again for a node of no class without command in progress, even when the node is busy with a job. -/
theorem reminder_repeated_violated (ts : List (Nat × Nat)) (v : View) (s : St) (hs : Ok s) (n : String) (hn : (n, Cmd.halt) ∈ s.remind) (hr : n ∉ keys s.running)
    (hc : ∀ k ∈ v.classes, n ∉ k.2.map (·.1)) (s' : St) (cmds : List (Cmd × String)) (sus : List String) (h : cycle ts v s none = some (s', cmds, sus)) :
    (Cmd.halt, n) ∈ cmds := by
  obtain ⟨t, ht, _, _, _, hcmd, _⟩ := cycle_out ts v s none hs.rem _ h
  dsimp only at hcmd
  obtain ⟨_, _, _, _, _, _, _, p8, _⟩ := process_spec v s none hs.rem
  obtain ⟨_, hp⟩ := p8 _ hn (fun hc => hr (still_sub v s _ hc))
  obtain ⟨_, _, _, _, _, l6⟩ := launch_spec (v.now + t) (processOf v s none).1 (classesOf v)
  rcases l6 n (hp rfl) with h | ⟨c, hcc, h1, _⟩
  · exact hcmd ▸ h
  · obtain ⟨k, hk, rfl⟩ := List.mem_map.1 hcc
    exact absurd h1 (hc k hk)

/-! ## A history -/

/-- The database when `n1` is alive and occupied by a job, `n2` down. -/
def viewA : View := ⟨[(1, [("n2", "Absent", "UnChanged"), ("n3", "Alive", "UnChanged")])], ["n1"], ["n2"], ["n1", "n3"], 100⟩
/-- The same when `n1` is down. -/
def viewB : View := ⟨[(1, [("n2", "Absent", "UnChanged"), ("n3", "Alive", "UnChanged")])], [], ["n1", "n2"], ["n3"], 100⟩

/-- A node is asked to wake up, then to halt while it boots (remembered); it is up; the HALT is launched, is over, the node is woken up again and runs a job: the next CHECK halts it. -/
example : ∃ s1 s2 s3 s4 s5 : St, turn [(1, 900)] 30 [] viewB empty (some (.wakeup, ["n1"])) = some (s1, [(.wakeup, "n1")], []) ∧
    turn [(1, 900)] 30 [some 0] viewB s1 (some (.halt, ["n1"])) = some (s2, [], []) ∧
    turn [(1, 900)] 30 [] viewA s2 none = some (s3, [(.halt, "n1")], []) ∧
    turn [(1, 900)] 30 [some 0] viewB s3 (some (.wakeup, ["n1"])) = some (s4, [(.wakeup, "n1")], []) ∧
    turn [(1, 900)] 30 [some 0] viewA s4 none = some (s5, [(.halt, "n1")], []) ∧ "n1" ∈ viewA.occupied :=
  ⟨⟨[("n1", .wakeup, 1000)], [], [("n1", .wakeup, 100)]⟩, ⟨[("n1", .wakeup, 1000)], [("n1", .halt)], []⟩, ⟨[("n1", .halt, -1)], [("n1", .halt)], [("n1", .halt, 100)]⟩,
    ⟨[("n1", .wakeup, 1000)], [("n1", .halt)], [("n1", .wakeup, 100)]⟩, ⟨[("n1", .halt, -1)], [("n1", .halt)], [("n1", .halt, 100)]⟩,
    by decide +kernel, by decide +kernel, by decide +kernel, by decide +kernel, by decide +kernel, by decide⟩

/-- The hypotheses of `keepalive_kept_partial`, `keepalive_woken` and `request_answered` are met: the HALT of `n3`, the last idle node of its class, is refused; and one idle node lacking wakes `n2` up. -/
example : cycle [(1, 900)] viewA empty (some (.halt, ["n3", "n1"])) = some (⟨[("n1", .halt, -1)], [], [("n1", .halt, 100)]⟩, [(.halt, "n1")], []) ∧
    cycle [(1, 900)] { viewA with occupied := ["n1", "n3"] } empty none = some (⟨[("n2", .wakeup, 1000)], [], [("n2", .wakeup, 100)]⟩, [(.wakeup, "n2")], []) := by
  decide +kernel

/-- The hypotheses of `halt_forgotten_violated` are met. -/
example : ∃ s, Run [(1, 900)] 30 empty [(.halt, "n1")] s ∧ ("n1", Cmd.halt, -1) ∈ s.running :=
  ⟨⟨[("n1", .halt, -1)], [], [("n1", .halt, 100)]⟩, Run.turn _ [] _ [] viewA (some (.halt, ["n1"])) _ _ [] (Run.nil _) (by decide +kernel), by decide⟩

/-! ## Reading of the timeouts -/

/-- A couple `nb:timeout`. -/
def coupleText (x : Nat × Nat) : List Char := digits x.1 ++ ':' :: digits x.2

theorem digit_not_space (c : Char) (h : c.isDigit = true) : c.isWhitespace = false := by
  cases hc : c.isWhitespace with
  | false => rfl
  | true =>
    exfalso
    simp only [Char.isWhitespace, Bool.or_eq_true, decide_eq_true_eq] at hc
    rcases hc with ((hc | hc) | hc) | hc <;> rw [hc] at h <;> cases h

theorem wordsF_word (w : List Char) (hw : ∀ c ∈ w, c.isWhitespace = false) : ∀ (acc l : List Char), wordsF (w ++ l) acc = wordsF l (acc ++ w) := by
  induction w with
  | nil => intro acc l; simp
  | cons c w ih =>
    intro acc l
    rw [List.cons_append]
    unfold wordsF
    rw [if_neg (by rw [hw c (by simp)]; exact Bool.false_ne_true), ih (fun x hx => hw x (List.mem_cons_of_mem _ hx))]
    cases l <;> simp [wordsF]

theorem coupleText_spec (x : Nat × Nat) : (∀ c ∈ coupleText x, c.isWhitespace = false) ∧ coupleText x ≠ [] ∧ couple (coupleText x) = some x ∧ pyNat (coupleText x) = none := by
  have d1 := digits_spec x.1
  have d2 := digits_spec x.2
  have nc : ∀ n, ∀ c ∈ digits n, c ≠ ':' := by
    intro n c hc e
    have := List.all_eq_true.1 (digits_spec n).2.1 c hc
    rw [e] at this
    cases this
  refine ⟨fun c hc => ?_, ?_, ?_, ?_⟩
  · unfold coupleText at hc
    rw [List.mem_append, List.mem_cons] at hc
    rcases hc with hc | rfl | hc
    · exact digit_not_space c (List.all_eq_true.1 d1.2.1 c hc)
    · decide
    · exact digit_not_space c (List.all_eq_true.1 d2.2.1 c hc)
  · unfold coupleText
    simp
  · unfold couple coupleText
    rw [split_cons_sep _ _ _ (nc _), split_nil_sep _ _ (nc _)]
    dsimp only
    rw [pyNat_digits, pyNat_digits]
    rfl
  · unfold pyNat
    rw [if_neg]
    rintro ⟨_, h⟩
    have := List.all_eq_true.1 h ':' (by unfold coupleText; simp)
    cases this

/-- The words of texts without blanks separated by a blank. -/
theorem wordsF_join (w : List Char) (ws : List (List Char)) (h : ∀ x ∈ w :: ws, x ≠ [] ∧ ∀ c ∈ x, c.isWhitespace = false) :
    wordsF (w ++ (ws.map (fun x => ' ' :: x)).flatten) [] = w :: ws := by
  induction ws generalizing w with
  | nil =>
    rw [List.map_nil, List.flatten_nil, wordsF_word w (h w (by simp)).2]
    unfold wordsF
    rw [List.nil_append, if_neg (h w (by simp)).1]
  | cons x ws ih =>
    rw [List.map_cons, List.flatten_cons, wordsF_word w (h w (by simp)).2, List.nil_append, List.cons_append]
    rw [wordsF, if_pos (by decide), if_neg (h w (by simp)).1, ih x (fun y hy => h y (List.mem_cons_of_mem _ hy))]

theorem couples_text (l : List (Nat × Nat)) : ∀ acc, couples (l.map coupleText) acc = some (l.foldl (fun acc x => put x.1 x.2 acc) acc) := by
  induction l with
  | nil => intro acc; rfl
  | cons x l ih =>
    intro acc
    rw [List.map_cons]
    unfold couples
    rw [(coupleText_spec x).2.2.1]
    exact ih _

/-- C37: ENERGY_SAVING_NODE_MANAGER_WAKEUP_TIMEOUT is a number, used whatever the number of nodes, or couples `nb:timeout`. -/
theorem timeouts_read (n : Nat) (x : Nat × Nat) (l : List (Nat × Nat)) (hn : ((x :: l).map (·.1)).Nodup) :
    fillTimeouts (digits n) = some [(1, n)] ∧ fillTimeouts (coupleText x ++ (l.map (fun y => ' ' :: coupleText y)).flatten) = some (x :: l) ∧
    ∀ m, getTimeout [(1, n)] m = some n := by
  refine ⟨?_, ?_, fun m => ?_⟩
  · have := wordsF_join (digits n) [] (fun y hy => by
      rw [List.mem_singleton] at hy
      subst hy
      exact ⟨(digits_spec n).1, fun c hc => digit_not_space c (List.all_eq_true.1 (digits_spec n).2.1 c hc)⟩)
    rw [List.map_nil, List.flatten_nil, List.append_nil] at this
    unfold fillTimeouts
    rw [this]
    dsimp only
    rw [pyNat_digits]
  · have hw := wordsF_join (coupleText x) (l.map coupleText) (fun y hy => by
      have : y ∈ (x :: l).map coupleText := by rw [List.map_cons]; exact hy
      obtain ⟨z, _, rfl⟩ := List.mem_map.1 this
      exact ⟨(coupleText_spec z).2.1, (coupleText_spec z).1⟩)
    rw [List.map_map] at hw
    have hc : couples (coupleText x :: l.map coupleText) [] = some (x :: l) := by
      rw [← List.map_cons (f := coupleText), couples_text]
      exact congrArg some (by simpa using puts_new (x :: l) [] hn (by simp))
    unfold fillTimeouts
    rw [show (l.map (fun y => ' ' :: coupleText y)) = l.map ((fun x => ' ' :: x) ∘ coupleText) from rfl, hw]
    cases l with
    | nil =>
      show (match pyNat (coupleText x) with | some t => some [(1, t)] | none => couples [coupleText x] []) = _
      rw [(coupleText_spec x).2.2.2]
      exact hc
    | cons y l => exact hc
  · unfold getTimeout
    simp [scan, sortKeys, insertKey]

/-- C37 does not hold in full: an invalid couple raises an exception instead of being ignored with a warning, and without a threshold of 1 each cycle fails. -/
theorem timeouts_violated : fillTimeouts "1:30 x".toList = none ∧ fillTimeouts "10:600 20:900".toList = some [(10, 600), (20, 900)] ∧
    ∀ n, getTimeout [(10, 600), (20, 900)] n = none := by
  refine ⟨?_, ?_, fun n => rfl⟩
  · simp only [String.reduceToList]
    decide
  · simp only [String.reduceToList]
    decide

/-! ## The suspected nodes -/

/-- In a turn of the loop, after the check of the executors, the nodes suspected are exactly those whose boot is in progress, which are not
alive and whose deadline is passed. -/
theorem suspected_iff (ts : List (Nat × Nat)) (v : View) (s : St) (msg : Option (Cmd × List String))
    (x : St × List (Cmd × String) × List String) (h : cycle ts v s msg = some x) (n : String) :
    n ∈ x.2.2 ↔ ∃ d, (n, Cmd.wakeup, d) ∈ s.running ∧ n ∉ v.alive ∧ d < v.now := by
  unfold cycle at h
  dsimp only at h
  obtain ⟨t, _, hx⟩ := Option.map_eq_some_iff.1 h
  rw [← hx]
  dsimp only
  unfold late
  constructor
  · intro hn
    obtain ⟨⟨m, c, d⟩, hm, e⟩ := List.mem_map.1 hn
    obtain ⟨h1, h2⟩ := List.mem_filter.1 hm
    simp only [Bool.and_eq_true, decide_eq_true_eq, Bool.not_eq_true'] at h2
    have e : m = n := e
    subst e
    refine ⟨d, h2.1.1 ▸ h1, ?_, h2.2⟩
    have := h2.1.2
    intro hc
    rw [List.contains_iff_mem.2 hc] at this
    exact absurd this (by simp)
  · rintro ⟨d, h1, h2, h3⟩
    refine List.mem_map.2 ⟨(n, .wakeup, d), List.mem_filter.2 ⟨h1, ?_⟩, rfl⟩
    simp [h2, h3]

/-- The deadline of a boot launched in a cycle is the date of the cycle and the time-out given by the number of commands. -/
theorem deadline_spec (ts : List (Nat × Nat)) (v : View) (s : St) (msg : Option (Cmd × List String)) (hrem : (keys s.remind).Nodup)
    (x : St × List (Cmd × String) × List String) (h : cycle ts v s msg = some x) (n : String) (hn : (Cmd.wakeup, n) ∈ x.2.1) :
    ∃ t k, getTimeout ts k = some t ∧ (n, Cmd.wakeup, v.now + (t : Int)) ∈ x.1.running := by
  obtain ⟨t, ht, h1, _, _, h4, _⟩ := cycle_out ts v s msg hrem x h
  refine ⟨t, _, ht, ?_⟩
  rw [h4] at hn
  obtain ⟨_, d, hd⟩ := launched_mem _ _ _ _ _ hn
  rw [h1]
  refine List.mem_append_right _ ?_
  have : ∀ (limit : Int) (p : List (String × Cmd)) (cls : List Cl) (m : String) (d : Int), (m, Cmd.wakeup, d) ∈ (launch limit p cls).2 → d = limit := by
    intro limit p
    induction p with
    | nil => intro cls m d h; simp [launch] at h
    | cons y p ih =>
      obtain ⟨y1, y2⟩ := y
      intro cls m d h
      cases y2 with
      | wakeup =>
        rw [launch] at h
        rcases List.mem_cons.1 h with e | e
        · cases e; rfl
        · exact ih cls m d e
      | halt =>
        rw [launch] at h
        split at h
        · exact ih cls m d h
        · rcases List.mem_cons.1 h with e | e
          · cases e
          · exact ih _ m d e
  have e := this _ _ _ _ _ hd
  rw [e] at hd
  exact hd

/-- Both hold in a concrete case: a boot that should have ended at date 5 and one launched now. -/
example : ∃ x, cycle [(1, 30)] ⟨[], [], [], [], 10⟩ ⟨[("n1", .wakeup, 5)], [], []⟩ (some (.wakeup, ["n2"])) = some x ∧ x.2.2 = ["n1"] ∧
    x.1.running = [("n2", .wakeup, 40)] := ⟨_, rfl, by decide, by decide⟩

end Oar.Greta
