import Verif.Almighty

/-!
# C28: the central automaton

Everything is stated on what is observed: the modules launched and the commands taken.
-/

namespace Oar.Almighty

/-! ## Specification -/

/-- The dates of the executions of the scheduler. -/
def schedRuns (es : List Ev) : List (Int × Int) := es.filterMap (fun e => match e with | .sched a b => some (a, b) | _ => none)

/-- Each execution begins at least `d` seconds after the end of the previous one. -/
def Spaced (d : Int) : List (Int × Int) → Prop
  | [] => True
  | [_] => True
  | a :: b :: rest => a.2 + d ≤ b.1 ∧ Spaced d (b :: rest)

/-- The commands asking for a scheduling. -/
def Asks (c : String) : Prop :=
  c = "Qsub" ∨ c = "Qsub -I" ∨ c = "Term" ∨ c = "BipBip" ∨ c = "Scheduling" ∨ c = "Qresume" ∨ c = "Walltime"

/-- A request of scheduling is pending. -/
def Pending (s : St) : Prop := s.wanted = true ∨ s.state = .scheduler ∨ ∃ c ∈ s.queue, Asks c

/-- The number of commands taken from the queue. -/
def taken (es : List Ev) : Nat := (es.filter (fun e => match e with | .took _ => true | _ => false)).length

/-- The commands of the protocol. -/
def known : List String :=
  ["Qsub", "Qsub -I", "Term", "BipBip", "Scheduling", "Qresume", "Walltime", "Qdel", "Villains", "Finaud", "Time", "ChState"]

/-! ## Lemmas -/

theorem asks_iff (c : String) : c ∈ schedCmds ↔ Asks c := by simp [schedCmds, Asks]

theorem addCommand_nodup {q : List String} (h : q.Nodup) (c : String) : (addCommand q c).Nodup := by
  unfold addCommand
  split
  · exact h
  · rename_i hc
    rw [List.nodup_append]
    exact ⟨h, by simp, fun a ha b hb => by rw [List.mem_singleton.1 hb]; exact fun e => hc (e ▸ ha)⟩

theorem mem_addCommand (q : List String) (c d : String) : d ∈ addCommand q c ↔ d ∈ q ∨ d = c := by
  unfold addCommand
  split
  · rename_i h
    constructor
    · exact Or.inl
    · rintro (h' | rfl)
      · exact h'
      · exact h
  · simp

theorem addCommand_prefix (q : List String) (c : String) : ∃ t, addCommand q c = q ++ t ∧ t.length ≤ 1 := by
  unfold addCommand
  split
  · exact ⟨[], by simp⟩
  · exact ⟨[c], rfl, by simp⟩

theorem timeUpdate_nodup (cfg : Cfg) (s : St) (now : Int) (h : s.queue.Nodup) : (timeUpdate cfg s now).Nodup := by
  have key : ∀ (q : List String) (c : String) (P : Prop) [Decidable P], q.Nodup → (if P then addCommand q c else q).Nodup := by
    intro q c P _ hq
    split
    · exact addCommand_nodup hq c
    · exact hq
  exact key _ _ _ (key _ _ _ (key _ _ _ h))

theorem ite_prefix (q q' : List String) (c : String) (P : Prop) [Decidable P] (h : ∃ t, q' = q ++ t) :
    ∃ t, (if P then addCommand q' c else q') = q ++ t := by
  obtain ⟨t, rfl⟩ := h
  split
  · obtain ⟨u, hu, _⟩ := addCommand_prefix (q ++ t) c
    exact ⟨t ++ u, by rw [hu, List.append_assoc]⟩
  · exact ⟨t, rfl⟩

theorem timeUpdate_prefix (cfg : Cfg) (s : St) (now : Int) : ∃ t, timeUpdate cfg s now = s.queue ++ t :=
  ite_prefix _ _ _ _ (ite_prefix _ _ _ _ (ite_prefix _ _ _ _ ⟨[], by simp⟩))

theorem take_spec {q : List String} {c : String} {r : List String} (h : take q = some (c, r)) :
    q = c :: r ∨ q = "Time" :: c :: r := by
  unfold take at h
  split at h
  · exact absurd h (by simp)
  · split at h
    · rename_i hc
      split at h
      · have := Prod.mk.inj (Option.some.inj h)
        left; rw [← this.1, ← this.2]
      · have := Prod.mk.inj (Option.some.inj h)
        right; rw [hc, ← this.1, ← this.2]
    · have := Prod.mk.inj (Option.some.inj h)
      left; rw [← this.1, ← this.2]

theorem take_some {q : List String} (h : q ≠ []) : ∃ c r, take q = some (c, r) := by
  unfold take
  split
  · exact absurd rfl h
  · split
    · split
      · exact ⟨_, _, rfl⟩
      · exact ⟨_, _, rfl⟩
    · exact ⟨_, _, rfl⟩

/-- The queue from which a command is taken is never empty: the server never fails on an empty queue. -/
theorem qget_never_empty (s : St) (i : Inp) : ∃ c r, take (if s.queue = [] then readCommands s.queue i.msg else s.queue) = some (c, r) := by
  apply take_some
  split
  · rename_i h
    rw [h]
    unfold readCommands addCommand
    simp
  · rename_i h; exact h

/-- The queue never contains twice the same command. -/
theorem step_nodup (cfg : Cfg) (s : St) (i : Inp) (h : s.queue.Nodup) : (step cfg s i).1.queue.Nodup := by
  unfold step
  split
  · exact h
  · split
    · exact h
    · split
      · unfold stepQget
        have hq : (if s.queue = [] then readCommands s.queue i.msg else s.queue).Nodup := by
          split
          · exact addCommand_nodup h _
          · exact h
        split
        · exact h
        · rename_i c q ht
          rcases take_spec ht with e | e <;> rw [e] at hq
          · exact (List.nodup_cons.1 hq).2
          · exact (List.nodup_cons.1 (List.nodup_cons.1 hq).2).2
      · unfold stepScheduler
        dsimp only
        repeat' split
        all_goals exact h
      · unfold stepOther
        split
        · exact timeUpdate_nodup cfg s i.now h
        · dsimp only
          repeat' split
          all_goals exact h
        · dsimp only
          repeat' split
          all_goals exact h
        · dsimp only
          split
          · exact addCommand_nodup h _
          · exact h
        · dsimp only
          repeat' split
          all_goals first | exact h | exact addCommand_nodup h _
        · exact h

theorem run_nodup (cfg : Cfg) (is : List Inp) : ∀ s : St, s.queue.Nodup → (run cfg s is).1.queue.Nodup := by
  induction is with
  | nil => intro s h; exact h
  | cons i is ih => intro s h; exact ih _ (step_nodup cfg s i h)

/-! ## The theorems -/

/-- For every sequence of messages, signals, dates and exit codes, the queue of commands never contains a duplicate. -/
theorem queue_no_duplicate (cfg : Cfg) (is : List Inp) : (run cfg init is).1.queue.Nodup := run_nodup cfg is init (by simp [init])

/-- A turn that executes the scheduler records its end and respects the delay; the others do not touch the date. -/
theorem step_sched (cfg : Cfg) (s : St) (i : Inp) :
    (schedRuns (step cfg s i).2 = [] ∧ (step cfg s i).1.lastSched = s.lastSched) ∨
    (schedRuns (step cfg s i).2 = [(i.now, i.fin)] ∧ s.lastSched + cfg.minSched ≤ i.now ∧ (step cfg s i).1.lastSched = i.fin ∧
      s.state = .scheduler) := by
  unfold step
  split
  · exact Or.inl ⟨rfl, rfl⟩
  · split
    · exact Or.inl ⟨rfl, rfl⟩
    · split
      · left
        unfold stepQget
        split <;> exact ⟨rfl, rfl⟩
      · rename_i hst
        unfold stepScheduler
        split
        · rename_i hn
          right
          refine ⟨rfl, hn, ?_, hst⟩
          dsimp only
          repeat' split
          all_goals rfl
        · exact Or.inl ⟨rfl, rfl⟩
      · left
        unfold stepOther
        split
        · exact ⟨rfl, rfl⟩
        · refine ⟨rfl, ?_⟩
          dsimp only
          repeat' split
          all_goals rfl
        · refine ⟨rfl, ?_⟩
          dsimp only
          repeat' split
          all_goals rfl
        · exact ⟨rfl, rfl⟩
        · refine ⟨rfl, ?_⟩
          dsimp only
          repeat' split
          all_goals rfl
        · exact ⟨rfl, rfl⟩

theorem schedRuns_append (a b : List Ev) : schedRuns (a ++ b) = schedRuns a ++ schedRuns b := by simp [schedRuns]

theorem run_spaced (cfg : Cfg) (is : List Inp) : ∀ s : St, Spaced cfg.minSched (schedRuns (run cfg s is).2) ∧
    ∀ a, (schedRuns (run cfg s is).2).head? = some a → s.lastSched + cfg.minSched ≤ a.1 := by
  induction is with
  | nil => intro s; exact ⟨trivial, fun a h => absurd h (by simp [run, schedRuns])⟩
  | cons i is ih =>
    intro s
    obtain ⟨h1, h2⟩ := ih (step cfg s i).1
    show Spaced cfg.minSched (schedRuns (_ ++ _)) ∧ _
    rw [show (run cfg s (i :: is)).2 = (step cfg s i).2 ++ (run cfg (step cfg s i).1 is).2 from rfl, schedRuns_append]
    rcases step_sched cfg s i with ⟨e, hl⟩ | ⟨e, hn, hl, _⟩
    · rw [e, ← hl]; exact ⟨h1, h2⟩
    · rw [e]
      constructor
      · cases hr : schedRuns (run cfg (step cfg s i).1 is).2 with
        | nil => trivial
        | cons b rest =>
          rw [hr] at h1 h2
          refine ⟨?_, h1⟩
          have := h2 b rfl
          rw [hl] at this
          exact this
      · intro a ha
        have : (i.now, i.fin) = a := by simpa using ha
        rw [← this]
        exact hn

/-- Throttling: for every sequence of inputs, each execution of the scheduler begins at least the configured delay after the end
of the previous one. -/
theorem scheduler_throttled (cfg : Cfg) (is : List Inp) : Spaced cfg.minSched (schedRuns (run cfg init is).2) := (run_spaced cfg is init).1

/-- A turn never forgets a pending request of scheduling, unless the scheduler is executed. -/
theorem step_pending (cfg : Cfg) (s : St) (i : Inp) (h : Pending s) : Pending (step cfg s i).1 ∨ schedRuns (step cfg s i).2 ≠ [] := by
  unfold step
  split
  · exact Or.inl h
  · split
    · exact Or.inl h
    · split
      · rename_i hst
        left
        unfold stepQget
        split
        · exact h
        · rename_i c q ht
          rcases h with h | h | ⟨d, hd, hk⟩
          · exact Or.inl h
          · rw [hst] at h; exact absurd h (by decide)
          · have hne : s.queue ≠ [] := by intro e; rw [e] at hd; cases hd
            rw [if_neg hne] at ht
            rcases take_spec ht with e | e <;> rw [e] at hd
            · rcases List.mem_cons.1 hd with rfl | hd
              · right; left
                show target d = _
                unfold target
                rw [if_pos ((asks_iff d).2 hk)]
              · exact Or.inr (Or.inr ⟨d, hd, hk⟩)
            · rcases List.mem_cons.1 hd with rfl | hd
              · exact absurd hk (by simp [Asks])
              · rcases List.mem_cons.1 hd with rfl | hd
                · right; left
                  show target d = _
                  unfold target
                  rw [if_pos ((asks_iff d).2 hk)]
                · exact Or.inr (Or.inr ⟨d, hd, hk⟩)
      · rename_i hst
        unfold stepScheduler
        split
        · right
          simp [schedRuns]
        · exact Or.inl (Or.inl rfl)
      · rename_i hq hs
        left
        have h' : s.wanted = true ∨ ∃ c ∈ s.queue, Asks c := by
          rcases h with h | h | h
          · exact Or.inl h
          · exact absurd h hs
          · exact Or.inr h
        unfold stepOther
        split
        · rcases h' with h | ⟨c, hc, hk⟩
          · exact Or.inl h
          · right; right
            obtain ⟨t, ht⟩ := timeUpdate_prefix cfg s i.now
            refine ⟨c, ?_, hk⟩
            show c ∈ timeUpdate cfg s i.now
            rw [ht]; exact List.mem_append_left _ hc
        · dsimp only
          repeat' split
          all_goals exact h'.elim Or.inl (fun x => Or.inr (Or.inr x))
        · dsimp only
          repeat' split
          all_goals exact h'.elim Or.inl (fun x => Or.inr (Or.inr x))
        · dsimp only
          rcases h' with h | ⟨c, hc, hk⟩
          · exact Or.inl h
          · right; right
            refine ⟨c, ?_, hk⟩
            dsimp only
            split
            · exact (mem_addCommand _ _ _).2 (Or.inl hc)
            · exact hc
        · dsimp only
          split
          · rcases h' with h | ⟨c, hc, hk⟩
            · exact Or.inl h
            · exact Or.inr (Or.inr ⟨c, (mem_addCommand _ _ _).2 (Or.inl hc), hk⟩)
          · repeat' split
            all_goals exact h'.elim Or.inl (fun x => Or.inr (Or.inr x))
        · exact h

/-- For every run: a request of scheduling stays pending until the scheduler is executed. -/
theorem request_not_forgotten (cfg : Cfg) (is : List Inp) : ∀ s : St, Pending s → schedRuns (run cfg s is).2 = [] →
    Pending (run cfg s is).1 := by
  induction is with
  | nil => intro s h _; exact h
  | cons i is ih =>
    intro s h he
    have he' : schedRuns ((step cfg s i).2 ++ (run cfg (step cfg s i).1 is).2) = [] := he
    rw [schedRuns_append, List.append_eq_nil_iff] at he'
    rcases step_pending cfg s i h with hp | hp
    · exact ih _ hp he'.2
    · exact absurd he'.1 hp

/-- A command received from a user that asks for a scheduling is pending as soon as it has been read. -/
theorem request_received (cfg : Cfg) (s : St) (i : Inp) (c : String) (hq : s.queue = []) (hs : s.state = .qget) (hf : s.finish = false)
    (hi : i.stop = false) (hg : i.greta = false) (hm : i.msg = some c) (hc : Asks c) : Pending (step cfg s i).1 := by
  unfold step
  rw [if_neg (by simp [hf, hi]), if_neg (by simp [hg]), hs]
  dsimp only
  unfold stepQget
  rw [if_pos hq, hq, hm]
  have : take (readCommands [] (some c)) = some (c, []) := by
    show take (addCommand [] c) = _
    unfold addCommand take
    simp
  rw [this]
  right; left
  show target c = _
  unfold target
  rw [if_pos ((asks_iff c).2 hc)]

/-! ### Commands are served in order -/

/-- A turn keeps a command of the queue at its place, advances it, or takes it. -/
theorem step_index (cfg : Cfg) (s : St) (i : Inp) (a : List String) (c : String) (b : List String) (h : s.queue = a ++ c :: b) (hc : c ≠ "Time") :
    (taken (step cfg s i).2 = 0 ∧ ∃ b', (step cfg s i).1.queue = a ++ c :: b') ∨
    (taken (step cfg s i).2 = 1 ∧ ((∃ a' b', (step cfg s i).1.queue = a' ++ c :: b' ∧ a'.length < a.length) ∨
      (Ev.took c ∈ (step cfg s i).2 ∧ (step cfg s i).1.state = target c ∧ (step cfg s i).1.wanted = s.wanted))) := by
  have happ : ∀ d, ∃ b', addCommand s.queue d = a ++ c :: b' := by
    intro d
    obtain ⟨t, ht, _⟩ := addCommand_prefix s.queue d
    exact ⟨b ++ t, by rw [ht, h]; simp⟩
  unfold step
  split
  · exact Or.inl ⟨rfl, b, h⟩
  · split
    · exact Or.inl ⟨rfl, b, h⟩
    · split
      · unfold stepQget
        have hne : s.queue ≠ [] := by rw [h]; simp
        rw [if_neg hne]
        obtain ⟨d, r, ht⟩ := take_some hne
        rw [ht]
        right
        refine ⟨rfl, ?_⟩
        dsimp only
        rcases take_spec ht with e | e
        · rw [h] at e
          cases a with
          | nil =>
            right
            have := List.cons.inj e
            exact ⟨by rw [this.1]; simp, by rw [this.1], rfl⟩
          | cons x a =>
            left
            exact ⟨a, b, ((List.cons.inj e).2).symm, by simp⟩
        · rw [h] at e
          cases a with
          | nil => exact absurd (List.cons.inj e).1 hc
          | cons x a =>
            cases a with
            | nil =>
              right
              have := List.cons.inj (List.cons.inj e).2
              exact ⟨by rw [this.1]; simp, by rw [this.1], rfl⟩
            | cons y a =>
              left
              exact ⟨a, b, ((List.cons.inj (List.cons.inj e).2).2).symm, by simp; omega⟩
      · left
        unfold stepScheduler
        dsimp only
        split
        · refine ⟨rfl, b, ?_⟩
          dsimp only
          repeat' split
          all_goals exact h
        · exact ⟨rfl, b, h⟩
      · left
        unfold stepOther
        split
        · obtain ⟨t, ht⟩ := timeUpdate_prefix cfg s i.now
          exact ⟨rfl, b ++ t, by show timeUpdate cfg s i.now = _; rw [ht, h]; simp⟩
        · refine ⟨rfl, b, ?_⟩
          dsimp only
          repeat' split
          all_goals exact h
        · refine ⟨rfl, b, ?_⟩
          dsimp only
          repeat' split
          all_goals exact h
        · refine ⟨rfl, ?_⟩
          dsimp only
          split
          · exact happ _
          · exact ⟨b, h⟩
        · refine ⟨rfl, ?_⟩
          dsimp only
          split
          · exact happ _
          · refine ⟨b, ?_⟩
            repeat' split
            all_goals exact h
        · exact ⟨rfl, b, h⟩

theorem taken_append (a b : List Ev) : taken (a ++ b) = taken a + taken b := by simp [taken]

/-- Every command in the queue is taken at the latest when all those before it have been. -/
theorem command_served (cfg : Cfg) (is : List Inp) : ∀ (s : St) (a : List String) (c : String) (b : List String), s.queue = a ++ c :: b →
    c ≠ "Time" → taken (run cfg s is).2 > a.length → Ev.took c ∈ (run cfg s is).2 := by
  induction is with
  | nil => intro s a c b _ _ h; exact absurd h (by simp [run, taken])
  | cons i is ih =>
    intro s a c b h hc ht
    rw [show (run cfg s (i :: is)).2 = (step cfg s i).2 ++ (run cfg (step cfg s i).1 is).2 from rfl] at ht ⊢
    rw [taken_append] at ht
    rcases step_index cfg s i a c b h hc with ⟨h0, b', hb⟩ | ⟨h1, ⟨a', b', hb, hl⟩ | ⟨hm, _⟩⟩
    · exact List.mem_append_right _ (ih _ a c b' hb hc (by omega))
    · exact List.mem_append_right _ (ih _ a' c b' hb hc (by omega))
    · exact List.mem_append_left _ hm

/-! ### Bounded response -/

theorem asks_not_time {c : String} (h : Asks c) : c ≠ "Time" := by
  rintro rfl
  simp [Asks] at h

/-- A turn of a server in the state `Scheduler`, after the delay, executes the scheduler, unless the server is being stopped or Greta
restarted. -/
theorem step_scheduler (cfg : Cfg) (s : St) (i : Inp) (hs : s.state = .scheduler) (hn : s.lastSched + cfg.minSched ≤ i.now) :
    schedRuns (step cfg s i).2 ≠ [] ∨ ((step cfg s i).1.state = .scheduler ∧ (step cfg s i).1.lastSched = s.lastSched ∧
      taken (step cfg s i).2 = 0) := by
  unfold step
  split
  · exact Or.inr ⟨hs, rfl, rfl⟩
  · split
    · exact Or.inr ⟨hs, rfl, rfl⟩
    · left
      rw [hs]
      dsimp only
      unfold stepScheduler
      rw [if_pos hn]
      simp [schedRuns]

theorem response_scheduler (cfg : Cfg) (is : List Inp) : ∀ s : St, s.state = .scheduler → (∀ i ∈ is, s.lastSched + cfg.minSched ≤ i.now) →
    taken (run cfg s is).2 ≥ 1 → schedRuns (run cfg s is).2 ≠ [] := by
  induction is with
  | nil => intro s _ _ h; exact absurd h (by simp [run, taken])
  | cons i is ih =>
    intro s hs hn ht
    rw [show (run cfg s (i :: is)).2 = (step cfg s i).2 ++ (run cfg (step cfg s i).1 is).2 from rfl] at ht ⊢
    rw [taken_append] at ht
    rw [schedRuns_append]
    rcases step_scheduler cfg s i hs (hn i (by simp)) with h | ⟨h1, h2, h3⟩
    · exact fun e => h (List.append_eq_nil_iff.1 e).1
    · have := ih _ h1 (by intro j hj; rw [h2]; exact hn j (by simp [hj])) (by omega)
      exact fun e => this (List.append_eq_nil_iff.1 e).2

theorem response_queued (cfg : Cfg) (is : List Inp) : ∀ (s : St) (a : List String) (c : String) (b : List String), s.queue = a ++ c :: b →
    Asks c → (∀ i ∈ is, s.lastSched + cfg.minSched ≤ i.now) → taken (run cfg s is).2 ≥ a.length + 2 →
    schedRuns (run cfg s is).2 ≠ [] := by
  induction is with
  | nil => intro s a c b _ _ _ h; exact absurd h (by simp [run, taken])
  | cons i is ih =>
    intro s a c b h hc hn ht
    rw [show (run cfg s (i :: is)).2 = (step cfg s i).2 ++ (run cfg (step cfg s i).1 is).2 from rfl] at ht ⊢
    rw [taken_append] at ht
    rw [schedRuns_append]
    rcases step_sched cfg s i with ⟨_, hl⟩ | ⟨he, _⟩
    · have hn' : ∀ j ∈ is, (step cfg s i).1.lastSched + cfg.minSched ≤ j.now := by
        intro j hj; rw [hl]; exact hn j (by simp [hj])
      have goal : schedRuns (run cfg (step cfg s i).1 is).2 ≠ [] := by
        rcases step_index cfg s i a c b h (asks_not_time hc) with ⟨h0, b', hb⟩ | ⟨h1, ⟨a', b', hb, hlt⟩ | ⟨_, hm, _⟩⟩
        · exact ih _ a c b' hb hc hn' (by omega)
        · exact ih _ a' c b' hb hc hn' (by omega)
        · refine response_scheduler cfg is _ ?_ hn' (by omega)
          rw [hm]
          unfold target
          rw [if_pos ((asks_iff c).2 hc)]
      exact fun e => goal (List.append_eq_nil_iff.1 e).2
    · rw [he]; simp

theorem index_of_mem {c : String} {q : List String} (h : c ∈ q) : ∃ a b, q = a ++ c :: b := List.append_of_mem h

theorem target_known {c : String} (h : c ∈ known) : target c ≠ .qget := by
  simp only [known, List.mem_cons, List.not_mem_nil, or_false] at h
  rcases h with rfl | rfl | rfl | rfl | rfl | rfl | rfl | rfl | rfl | rfl | rfl | rfl <;> decide

theorem addCommand_known {q : List String} (h : ∀ c ∈ q, c ∈ known) {d : String} (hd : d ∈ known) : ∀ c ∈ addCommand q d, c ∈ known := by
  intro c hc
  rcases (mem_addCommand _ _ _).1 hc with h' | rfl
  · exact h c h'
  · exact hd

theorem timeUpdate_known (cfg : Cfg) (s : St) (now : Int) (h : ∀ c ∈ s.queue, c ∈ known) : ∀ c ∈ timeUpdate cfg s now, c ∈ known := by
  have key : ∀ (q : List String) (d : String) (P : Prop) [Decidable P], d ∈ known → (∀ c ∈ q, c ∈ known) →
      ∀ c ∈ (if P then addCommand q d else q), c ∈ known := by
    intro q d P _ hd hq
    split
    · exact addCommand_known hq hd
    · exact hq
  exact key _ _ _ (by decide) (key _ _ _ (by decide) (key _ _ _ (by decide) h))

/-- With known messages the queue only contains known commands. -/
theorem step_known (cfg : Cfg) (s : St) (i : Inp) (h : ∀ c ∈ s.queue, c ∈ known) (hm : ∀ c, i.msg = some c → c ∈ known) :
    ∀ c ∈ (step cfg s i).1.queue, c ∈ known := by
  unfold step
  split
  · exact h
  · split
    · exact h
    · split
      · unfold stepQget
        have hq : ∀ c ∈ (if s.queue = [] then readCommands s.queue i.msg else s.queue), c ∈ known := by
          split
          · apply addCommand_known h
            cases hi : i.msg with
            | none => simp [known]
            | some c => exact hm c hi
          · exact h
        split
        · exact h
        · rename_i c q ht
          rcases take_spec ht with e | e <;> rw [e] at hq
          · exact fun d hd => hq d (by simp only [List.mem_cons]; right; exact hd)
          · exact fun d hd => hq d (by simp only [List.mem_cons]; right; right; exact hd)
      · unfold stepScheduler
        dsimp only
        repeat' split
        all_goals exact h
      · unfold stepOther
        split
        · exact timeUpdate_known cfg s i.now h
        · dsimp only
          repeat' split
          all_goals exact h
        · dsimp only
          repeat' split
          all_goals exact h
        · dsimp only
          split
          · exact addCommand_known h (by decide)
          · exact h
        · dsimp only
          repeat' split
          all_goals first | exact h | exact addCommand_known h (by decide)
        · exact h

theorem length_le_of_nodup : ∀ {q k : List String}, q.Nodup → (∀ c ∈ q, c ∈ k) → q.length ≤ k.length
  | [], _, _, _ => Nat.zero_le _
  | x :: q, k, hn, hk => by
    have hx : x ∈ k := hk x (by simp)
    have hn' := List.nodup_cons.1 hn
    have := length_le_of_nodup (q := q) (k := k.erase x) hn'.2 (fun c hc =>
      (List.mem_erase_of_ne (fun e : c = x => hn'.1 (e ▸ hc))).2 (hk c (List.mem_cons_of_mem _ hc)))
    rw [List.length_erase_of_mem hx] at this
    have hpos : 0 < k.length := List.length_pos_of_mem hx
    simp only [List.length_cons]
    omega

theorem length_known {q : List String} (hn : q.Nodup) (hk : ∀ c ∈ q, c ∈ known) : q.length ≤ 12 :=
  length_le_of_nodup hn hk

theorem step_busy (cfg : Cfg) (s : St) (i : Inp) (h1 : s.state ≠ .qget) (h2 : s.state ≠ .scheduler) :
    taken (step cfg s i).2 = 0 ∧ (step cfg s i).1.wanted = s.wanted ∧ ((step cfg s i).1.state ≠ .qget ∨
      (s.state = .timeUpdate ∧ (step cfg s i).1.queue = timeUpdate cfg s i.now)) := by
  unfold step
  split
  · exact ⟨rfl, rfl, Or.inl h1⟩
  · split
    · exact ⟨rfl, rfl, Or.inl h1⟩
    · split
      · rename_i h; exact absurd h h1
      · rename_i h; exact absurd h h2
      · unfold stepOther
        split
        · rename_i h; exact ⟨rfl, rfl, Or.inr ⟨h, rfl⟩⟩
        all_goals rename_i hst
        · dsimp only
          repeat' split
          all_goals exact ⟨rfl, rfl, Or.inl (by first | exact h1 | simp)⟩
        · dsimp only
          repeat' split
          all_goals exact ⟨rfl, rfl, Or.inl (by first | exact h1 | simp)⟩
        · exact ⟨rfl, rfl, Or.inl (by simp)⟩
        · dsimp only
          repeat' split
          all_goals exact ⟨rfl, rfl, Or.inl (by first | exact h1 | simp)⟩
        · exact ⟨rfl, rfl, Or.inl h1⟩

theorem timeUpdate_wanted (cfg : Cfg) (s : St) (now : Int) (hw : s.wanted = true) (hn : s.lastSched + cfg.minSched ≤ now) :
    "Scheduling" ∈ timeUpdate cfg s now := by
  have key : ∀ (q : List String) (d : String) (P : Prop) [Decidable P], "Scheduling" ∈ q →
      "Scheduling" ∈ (if P then addCommand q d else q) := by
    intro q d P _ hq
    split
    · exact (mem_addCommand _ _ _).2 (Or.inl hq)
    · exact hq
  refine key _ _ _ (key _ _ _ ?_)
  rw [if_pos (Or.inr ⟨hw, hn⟩)]
  exact (mem_addCommand _ _ _).2 (Or.inr rfl)

theorem step_qget (cfg : Cfg) (s : St) (i : Inp) (hk : ∀ c ∈ s.queue, c ∈ known) (hm : ∀ c, i.msg = some c → c ∈ known)
    (hs : s.state = .qget) :
    (step cfg s i).1.wanted = s.wanted ∧ ((taken (step cfg s i).2 = 0 ∧ (step cfg s i).1.state = .qget) ∨
      (taken (step cfg s i).2 = 1 ∧ (step cfg s i).1.state ≠ .qget)) := by
  unfold step
  split
  · exact ⟨rfl, Or.inl ⟨rfl, hs⟩⟩
  · split
    · exact ⟨rfl, Or.inl ⟨rfl, hs⟩⟩
    · rw [hs]
      dsimp only
      unfold stepQget
      obtain ⟨c, r, ht⟩ := qget_never_empty s i
      rw [ht]
      refine ⟨rfl, Or.inr ⟨rfl, ?_⟩⟩
      apply target_known
      have hq : ∀ c ∈ (if s.queue = [] then readCommands s.queue i.msg else s.queue), c ∈ known := by
        split
        · apply addCommand_known hk
          cases hi : i.msg with
          | none => simp [known]
          | some c => exact hm c hi
        · exact hk
      rcases take_spec ht with e | e <;> rw [e] at hq <;> exact hq c (by simp)

theorem response_busy (cfg : Cfg) (is : List Inp) : ∀ s : St, s.wanted = true → s.state ≠ .qget → s.queue.Nodup → (∀ c ∈ s.queue, c ∈ known) →
    (∀ i ∈ is, ∀ c, i.msg = some c → c ∈ known) → (∀ i ∈ is, s.lastSched + cfg.minSched ≤ i.now) → taken (run cfg s is).2 ≥ 14 →
    schedRuns (run cfg s is).2 ≠ [] := by
  induction is with
  | nil => intro s _ _ _ _ _ _ h; exact absurd h (by simp [run, taken])
  | cons i is ih =>
    intro s hw hs hnd hk hm hn ht
    by_cases hs2 : s.state = .scheduler
    · exact response_scheduler cfg (i :: is) s hs2 hn (by omega)
    · rw [show (run cfg s (i :: is)).2 = (step cfg s i).2 ++ (run cfg (step cfg s i).1 is).2 from rfl] at ht ⊢
      rw [taken_append] at ht
      rw [schedRuns_append]
      obtain ⟨h0, h1, h2⟩ := step_busy cfg s i hs hs2
      rcases step_sched cfg s i with ⟨_, hl⟩ | ⟨he, _⟩
      · have hn' : ∀ j ∈ is, (step cfg s i).1.lastSched + cfg.minSched ≤ j.now := by
          intro j hj; rw [hl]; exact hn j (by simp [hj])
        have hk' := step_known cfg s i hk (hm i (by simp))
        have hnd' := step_nodup cfg s i hnd
        have goal : schedRuns (run cfg (step cfg s i).1 is).2 ≠ [] := by
          rcases h2 with h2 | ⟨hst, hq⟩
          · exact ih _ (by rw [h1]; exact hw) h2 hnd' hk' (fun j hj => hm j (by simp [hj])) hn' (by omega)
          · obtain ⟨a, b, e⟩ := index_of_mem (hq ▸ timeUpdate_wanted cfg s i.now hw (hn i (by simp)))
            refine response_queued cfg is _ a "Scheduling" b e (by simp [Asks]) hn' ?_
            have := length_known hnd' hk'
            rw [e] at this
            simp at this
            omega
        exact fun e => goal (List.append_eq_nil_iff.1 e).2
      · rw [he]; simp

/-- Bounded response: once the delay has elapsed, if only commands of the protocol are received, a pending request is served
before the automaton takes a 15th command, whatever the exit codes, the dates and the messages are. -/
theorem request_served (cfg : Cfg) (is : List Inp) (s : St) (h : Pending s) (hnd : s.queue.Nodup) (hk : ∀ c ∈ s.queue, c ∈ known)
    (hm : ∀ i ∈ is, ∀ c, i.msg = some c → c ∈ known) (hn : ∀ i ∈ is, s.lastSched + cfg.minSched ≤ i.now)
    (ht : taken (run cfg s is).2 ≥ 15) : schedRuns (run cfg s is).2 ≠ [] := by
  by_cases hs : s.state = .scheduler
  · exact response_scheduler cfg is s hs hn (by omega)
  rcases h with h | h | ⟨c, hc, ha⟩
  · by_cases hq : s.state = .qget
    · induction is generalizing s with
      | nil => exact absurd ht (by simp [run, taken])
      | cons i is ih =>
        rw [show (run cfg s (i :: is)).2 = (step cfg s i).2 ++ (run cfg (step cfg s i).1 is).2 from rfl] at ht ⊢
        rw [taken_append] at ht
        rw [schedRuns_append]
        obtain ⟨h1, h2⟩ := step_qget cfg s i hk (hm i (by simp)) hq
        rcases step_sched cfg s i with ⟨_, hl⟩ | ⟨he, _⟩
        · have hn' : ∀ j ∈ is, (step cfg s i).1.lastSched + cfg.minSched ≤ j.now := by
            intro j hj; rw [hl]; exact hn j (by simp [hj])
          have hk' := step_known cfg s i hk (hm i (by simp))
          have hnd' := step_nodup cfg s i hnd
          have goal : schedRuns (run cfg (step cfg s i).1 is).2 ≠ [] := by
            rcases h2 with ⟨h0, h2⟩ | ⟨h0, h2⟩
            · exact ih _ hnd' hk' (fun j hj => hm j (by simp [hj])) hn' (by omega) (by rw [h2]; decide) (by rw [h1]; exact h) h2
            · exact response_busy cfg is _ (by rw [h1]; exact h) h2 hnd' hk' (fun j hj => hm j (by simp [hj])) hn' (by omega)
          exact fun e => goal (List.append_eq_nil_iff.1 e).2
        · rw [he]; simp
    · exact response_busy cfg is s h hq hnd hk hm hn (by omega)
  · exact absurd h hs
  · obtain ⟨a, b, e⟩ := index_of_mem hc
    refine response_queued cfg is s a c b e ha hn ?_
    have := length_known hnd hk
    rw [e] at this
    simp at this
    omega

/-- A run: a submission is received at 100, served at once; a second one, received 2 seconds later, waits for the delay. -/
def exInputs : List Inp :=
  [{ now := 100, fin := 100, msg := some "Qsub" }, { now := 100, fin := 101 }, { now := 101, fin := 101 }, { now := 101, fin := 101 },
   { now := 101, fin := 101 }, { now := 101, fin := 101 }, { now := 102, fin := 102 }, { now := 102, fin := 102 },
   { now := 102, fin := 102 }, { now := 102, fin := 102, msg := some "Qsub" }, { now := 103, fin := 103 }, { now := 103, fin := 103 },
   { now := 103, fin := 103 }, { now := 108, fin := 108 }, { now := 108, fin := 108 }, { now := 108, fin := 109 }]

example : (run ⟨5, 300⟩ init exInputs).2 =
    [.took "Qsub", .sched 100 101, .changeState, .took "Villains", .villains, .took "Time", .took "Qsub",
     .took "Time", .took "Scheduling", .sched 108 109] := by decide

/-- The request is pending in the middle of the run, and the hypotheses of `request_served` are met. -/
example : Pending (run ⟨5, 300⟩ init (exInputs.take 11)).1 ∧ (run ⟨5, 300⟩ init (exInputs.take 11)).1.wanted = true ∧
    (∀ i ∈ exInputs.drop 13, (run ⟨5, 300⟩ init (exInputs.take 11)).1.lastSched + 5 ≤ i.now) := by
  refine ⟨Or.inl (by decide), by decide, by decide⟩

/-- Flooding: with a stream of unknown commands the pending request is never served, whatever the time elapsed. -/
theorem request_starved_violated (n : Nat) : ∃ s : St, ∃ is : List Inp, Pending s ∧ s.finish = false ∧ is.length = n ∧ (∀ i ∈ is, s.lastSched + 5 ≤ i.now) ∧
    taken (run ⟨5, 300⟩ s is).2 = n ∧ (run ⟨5, 300⟩ s is).2.length = n ∧ schedRuns (run ⟨5, 300⟩ s is).2 = [] := by
  refine ⟨⟨.qget, [], 100, 100, 100, true, false⟩, List.replicate n { now := 1000, fin := 1000, msg := some "Hello" }, Or.inl rfl, rfl,
    by simp, ?_, ?_⟩
  · intro i hi
    rw [List.eq_of_mem_replicate hi]
    decide
  · induction n with
    | zero => exact ⟨rfl, rfl, rfl⟩
    | succ n ih =>
      rw [List.replicate_succ]
      have hstep : step ⟨5, 300⟩ ⟨.qget, [], 100, 100, 100, true, false⟩ { now := 1000, fin := 1000, msg := some "Hello" } =
          (⟨.qget, [], 100, 100, 100, true, false⟩, [.took "Hello"]) := by decide
      show taken ((step _ _ _).2 ++ (run _ (step _ _ _).1 _).2) = _ ∧ ((step _ _ _).2 ++ (run _ (step _ _ _).1 _).2).length = _ ∧
        schedRuns ((step _ _ _).2 ++ (run _ (step _ _ _).1 _).2) = _
      rw [hstep, taken_append, schedRuns_append, ih.1, ih.2.2, List.length_append, ih.2.1]
      exact ⟨by simp [taken]; omega, by simp; omega, rfl⟩

/-- An unknown command is dropped and changes nothing else. -/
theorem unknown_dropped (cfg : Cfg) (s : St) (i : Inp) (c : String) (q : List String) (hc : c ∉ known) (hs : s.state = .qget) (hq : s.queue = c :: q)
    (hf : s.finish = false) (hi : i.stop = false) (hg : i.greta = false) :
    step cfg s i = ({ s with queue := q }, [.took c]) := by
  have hn : c ≠ "Time" := fun e => hc (by rw [e]; simp [known])
  have ht : target c = .qget := by
    unfold target
    simp only [known, List.mem_cons, List.not_mem_nil, or_false, not_or] at hc
    rw [if_neg (by simp [schedCmds, hc]), if_neg hc.2.2.2.2.2.2.2.1, if_neg hc.2.2.2.2.2.2.2.2.1, if_neg hc.2.2.2.2.2.2.2.2.2.1,
      if_neg hn, if_neg hc.2.2.2.2.2.2.2.2.2.2.2]
  unfold step
  rw [if_neg (by simp [hf, hi]), if_neg (by simp [hg]), hs]
  dsimp only
  unfold stepQget
  have : take s.queue = some (c, q) := by rw [hq]; unfold take; dsimp only; rw [if_neg hn]
  rw [if_neg (by rw [hq]; simp), this]
  dsimp only
  rw [ht, ← hs]

/-- The watchers are launched regularly: a time update past their delay puts their command in the queue. -/
theorem watchers_queued (cfg : Cfg) (s : St) (i : Inp) (hs : s.state = .timeUpdate) (hf : s.finish = false) (hi : i.stop = false)
    (hg : i.greta = false) :
    (s.lastVillains + 10 ≤ i.now → "Villains" ∈ (step cfg s i).1.queue) ∧
    (0 < cfg.finaud → s.lastNodes + cfg.finaud ≤ i.now → "Finaud" ∈ (step cfg s i).1.queue) ∧
    (s.lastSched + 60 ≤ i.now → "Scheduling" ∈ (step cfg s i).1.queue) := by
  have key : ∀ (x : String) (q : List String) (d : String) (P : Prop) [Decidable P], x ∈ q → x ∈ (if P then addCommand q d else q) := by
    intro x q d P _ hq
    split
    · exact (mem_addCommand _ _ _).2 (Or.inl hq)
    · exact hq
  have hst : (step cfg s i).1.queue = timeUpdate cfg s i.now := by
    unfold step
    rw [if_neg (by simp [hf, hi]), if_neg (by simp [hg]), hs]
    dsimp only
    unfold stepOther
    rw [hs]
  rw [hst]
  refine ⟨fun h => key _ _ _ _ ?_, fun h0 h => ?_, fun h => key _ _ _ _ (key _ _ _ _ ?_)⟩
  · rw [if_pos h]; exact (mem_addCommand _ _ _).2 (Or.inr rfl)
  · unfold timeUpdate
    dsimp only
    rw [if_pos (⟨h, h0⟩ : _ ∧ _)]
    exact (mem_addCommand _ _ _).2 (Or.inr rfl)
  · rw [if_pos (Or.inl h)]; exact (mem_addCommand _ _ _).2 (Or.inr rfl)

/-- An unexpected exit code of a module stops the server at the next turn. -/
theorem bad_exit_stops (cfg : Cfg) (s : St) (i j : Inp) (hs : s.state = .villains ∨ s.state = .checkNodes) (hf : s.finish = false)
    (hi : i.stop = false) (hg : i.greta = false) (hr : i.rc ≠ 0 ∧ i.rc ≠ 1) : (step cfg (step cfg s i).1 j).2 = [.stopped] := by
  have : (step cfg s i).1.finish = true := by
    unfold step
    rw [if_neg (by simp [hf, hi]), if_neg (by simp [hg])]
    rcases hs with h | h <;> rw [h] <;> dsimp only <;> unfold stepOther <;> rw [h] <;> dsimp only <;> rw [if_neg hr.2, if_neg hr.1]
  unfold step
  rw [if_pos (Or.inl (by unfold step at this; exact this))]

/-- Specification: the module that a command asks for. -/
def asked : List (String × Ev) := [("Qdel", .leon), ("Villains", .villains), ("Finaud", .checkNodes), ("ChState", .changeState)]

/-- The module launched for a command is the one it asks for, at the next turn. -/
theorem command_module (cfg : Cfg) (s : St) (i j : Inp) (c : String) (e : Ev) (h : Ev.took c ∈ (step cfg s i).2) (hc : (c, e) ∈ asked)
    (hj : j.stop = false) (hg : j.greta = false) : (step cfg (step cfg s i).1 j).2 = [e] := by
  have key : (step cfg s i).1.finish = false ∧ (step cfg s i).1.state = target c := by
    unfold step at h ⊢
    split at h
    · simp at h
    · rename_i hf
      rw [if_neg hf]
      split at h
      · simp at h
      · rename_i hg'
        rw [if_neg hg']
        have hfin : s.finish = false := by
          cases hx : s.finish with
          | false => rfl
          | true => exact absurd (Or.inl hx) hf
        split at h
        · rename_i hs
          unfold stepQget at h ⊢
          cases ht : take (if s.queue = [] then readCommands s.queue i.msg else s.queue) with
          | none => rw [ht] at h; simp at h
          | some p =>
            rw [ht] at h
            dsimp only at h ⊢
            simp only [List.mem_cons, List.not_mem_nil, or_false, Ev.took.injEq] at h
            rw [h]
            exact ⟨hfin, rfl⟩
        · unfold stepScheduler at h
          split at h <;> simp at h
        · unfold stepOther at h
          split at h <;> simp at h
  obtain ⟨hf, hs⟩ := key
  generalize (step cfg s i).1 = t at hf hs ⊢
  have hstep : step cfg t j = match t.state with
    | .qget => stepQget t j
    | .scheduler => stepScheduler cfg t j
    | _ => stepOther cfg t j := by
    unfold step
    rw [if_neg (by rw [hf, hj]; simp), if_neg (by rw [hg]; simp)]
    rfl
  rw [hstep]
  simp only [asked, List.mem_cons, List.not_mem_nil, or_false, Prod.mk.injEq] at hc
  rcases hc with ⟨rfl, rfl⟩ | ⟨rfl, rfl⟩ | ⟨rfl, rfl⟩ | ⟨rfl, rfl⟩
  all_goals
    rw [show t.state = _ from hs]
    simp [target, schedCmds, stepOther, hs]

example : Ev.took "Qdel" ∈ (step ⟨5, 300⟩ init { now := 1, fin := 1, msg := some "Qdel" }).2 ∧
    (step ⟨5, 300⟩ (step ⟨5, 300⟩ init { now := 1, fin := 1, msg := some "Qdel" }).1 { now := 1, fin := 2 }).2 = [.leon] := by decide

/-- The number of turns before the next command at most. -/
def rank : State → Nat
  | .qget => 0
  | .timeUpdate => 1
  | .leon => 2
  | .scheduler => 2
  | .villains => 3
  | .changeState => 3
  | .checkNodes => 4

theorem step_rank (cfg : Cfg) (s : St) (i : Inp) (hi : i.stop = false) (hg : i.greta = false) (hf : s.finish = false) :
    taken (step cfg s i).2 ≥ 1 ∨ schedRuns (step cfg s i).2 ≠ [] ∨ (step cfg s i).1.finish = true ∨ rank (step cfg s i).1.state < rank s.state := by
  unfold step
  rw [if_neg (by rw [hf, hi]; simp), if_neg (by rw [hg]; simp)]
  cases hs : s.state with
  | qget =>
    dsimp only
    unfold stepQget
    obtain ⟨c, r, ht⟩ := qget_never_empty s i
    rw [ht]
    exact Or.inl (by simp [taken])
  | scheduler =>
    dsimp only
    unfold stepScheduler
    by_cases h : i.now ≥ s.lastSched + cfg.minSched
    · rw [if_pos h]
      exact Or.inr (Or.inl (by simp [schedRuns]))
    · rw [if_neg h]
      exact Or.inr (Or.inr (Or.inr (by simp [rank])))
  | timeUpdate =>
    dsimp only
    unfold stepOther
    rw [hs]
    exact Or.inr (Or.inr (Or.inr (by simp [rank])))
  | villains =>
    dsimp only
    unfold stepOther
    rw [hs]
    refine Or.inr (Or.inr ?_)
    dsimp only
    by_cases h1 : i.rc = 1
    · simp [h1, rank]
    · by_cases h0 : i.rc = 0 <;> simp [h0, h1, rank]
  | checkNodes =>
    dsimp only
    unfold stepOther
    rw [hs]
    refine Or.inr (Or.inr ?_)
    dsimp only
    by_cases h1 : i.rc = 1
    · simp [h1, rank]
    · by_cases h0 : i.rc = 0 <;> simp [h0, h1, rank]
  | leon =>
    dsimp only
    unfold stepOther
    rw [hs]
    exact Or.inr (Or.inr (Or.inr (by simp [rank])))
  | changeState =>
    dsimp only
    unfold stepOther
    rw [hs]
    refine Or.inr (Or.inr ?_)
    dsimp only
    by_cases h2 : i.rc = 2
    · simp [h2, rank]
    · by_cases h1 : i.rc = 1
      · simp [h1, rank]
      · by_cases h0 : i.rc = 0 <;> simp [h0, h1, h2, rank]

theorem step_finished (cfg : Cfg) (s : St) (i : Inp) (h : s.finish = true) : Ev.stopped ∈ (step cfg s i).2 := by
  unfold step
  rw [if_pos (Or.inl h)]
  simp

theorem run_rank (cfg : Cfg) (is : List Inp) : ∀ s : St, (∀ i ∈ is, i.stop = false ∧ i.greta = false) → s.finish = false → rank s.state < is.length →
    taken (run cfg s is).2 ≥ 1 ∨ schedRuns (run cfg s is).2 ≠ [] ∨ Ev.stopped ∈ (run cfg s is).2 ∨ (run cfg s is).1.finish = true := by
  induction is with
  | nil => intro s _ _ h; exact absurd h (by simp)
  | cons i is ih =>
    intro s hi hf hr
    rw [show (run cfg s (i :: is)).2 = (step cfg s i).2 ++ (run cfg (step cfg s i).1 is).2 from rfl,
      show (run cfg s (i :: is)).1 = (run cfg (step cfg s i).1 is).1 from rfl, taken_append, schedRuns_append]
    rcases step_rank cfg s i (hi i (by simp)).1 (hi i (by simp)).2 hf with h | h | h | h
    · exact Or.inl (by omega)
    · exact Or.inr (Or.inl (fun e => h (List.append_eq_nil_iff.1 e).1))
    · refine Or.inr (Or.inr ?_)
      cases is with
      | nil => exact Or.inr h
      | cons j js =>
        refine Or.inl (List.mem_append_right _ ?_)
        show Ev.stopped ∈ (step cfg _ j).2 ++ _
        exact List.mem_append_left _ (step_finished cfg _ j h)
    · by_cases hf' : (step cfg s i).1.finish = true
      · refine Or.inr (Or.inr ?_)
        cases is with
        | nil => exact Or.inr hf'
        | cons j js =>
          refine Or.inl (List.mem_append_right _ ?_)
          show Ev.stopped ∈ (step cfg _ j).2 ++ _
          exact List.mem_append_left _ (step_finished cfg _ j hf')
      · rcases ih (step cfg s i).1 (fun j hj => hi j (by simp [hj])) (by simpa using hf') (by simp at hr; omega) with h | h | h | h
        · exact Or.inl (by omega)
        · exact Or.inr (Or.inl (fun e => h (List.append_eq_nil_iff.1 e).2))
        · exact Or.inr (Or.inr (Or.inl (List.mem_append_right _ h)))
        · exact Or.inr (Or.inr (Or.inr h))

/-- The automaton is never blocked: in five turns without signal it takes a command or executes the scheduler, or the server stops
because of the exit code of a module. -/
theorem never_blocked (cfg : Cfg) (s : St) (is : List Inp) (hl : is.length = 5) (hi : ∀ i ∈ is, i.stop = false ∧ i.greta = false)
    (hf : s.finish = false) :
    taken (run cfg s is).2 ≥ 1 ∨ schedRuns (run cfg s is).2 ≠ [] ∨ Ev.stopped ∈ (run cfg s is).2 ∨ (run cfg s is).1.finish = true :=
  run_rank cfg is s hi hf (by rw [hl]; cases s.state <;> decide)

/-- Executing the scheduler serves the request: nothing is wanted any more, and then a time update does not ask for a scheduling before
the periodic one. -/
theorem request_cleared (cfg : Cfg) (s : St) (i : Inp) (h : schedRuns (step cfg s i).2 ≠ []) : (step cfg s i).1.wanted = false := by
  unfold step at h ⊢
  split at h
  · simp [schedRuns] at h
  · rename_i h1
    rw [if_neg h1]
    split at h
    · simp [schedRuns] at h
    · rename_i h2
      rw [if_neg h2]
      split at h
      · unfold stepQget at h
        split at h <;> simp [schedRuns] at h
      · unfold stepScheduler at h ⊢
        split at h
        · rename_i h3
          rw [if_pos h3]
          dsimp only
          repeat' split
          all_goals rfl
        · simp [schedRuns] at h
      · unfold stepOther at h
        split at h <;> simp [schedRuns] at h

theorem no_spurious_request (cfg : Cfg) (s : St) (i : Inp) (hs : s.state = .timeUpdate) (hw : s.wanted = false)
    (hn : i.now < s.lastSched + 60) (hq : "Scheduling" ∉ s.queue) : "Scheduling" ∉ (step cfg s i).1.queue := by
  unfold step
  split
  · exact hq
  · split
    · exact hq
    · rw [hs]
      dsimp only
      unfold stepOther
      rw [hs]
      dsimp only
      unfold timeUpdate
      dsimp only
      intro hm
      have h1 : ∀ (q : List String) (c : String), "Scheduling" ∈ addCommand q c → c ≠ "Scheduling" → "Scheduling" ∈ q := by
        intro q c hm hc
        unfold addCommand at hm
        split at hm
        · exact hm
        · rcases List.mem_append.1 hm with hm | hm
          · exact hm
          · exact absurd (List.mem_singleton.1 hm).symm hc
      have h2 : ∀ (q : List String) (c : String) (P : Prop) [Decidable P], "Scheduling" ∈ (if P then addCommand q c else q) → c ≠ "Scheduling" →
          "Scheduling" ∈ q := by
        intro q c P _ hm hc
        split at hm
        · exact h1 q c hm hc
        · exact hm
      have hm := h2 _ _ _ (h2 _ _ _ hm (by decide)) (by decide)
      rw [if_neg (by rw [hw]; simp; omega)] at hm
      exact hq hm

example : (step ⟨5, 300⟩ ⟨.timeUpdate, ["Villains"], 100, 100, 100, false, false⟩ { now := 120, fin := 120 }).1.queue = ["Villains"] := by decide

/-- **C28.** What a status of a module makes the server do next (the modules return numbers; any other number stops it): after a scheduling round, 0 the changes of the nodes,
1 another round, 2 Leon; after the check of the jobs, 1 Leon; after the check of the nodes, 1 the changes of the nodes; after the changes of the nodes, 2 Leon with a command `Term`
kept for later, 1 a scheduling round; after Leon, 1 keeps a command `Term`. -/
theorem status_obeyed (cfg : Cfg) (s : St) (i : Inp) (hf : s.finish = false) (hs : i.stop = false) (hg : i.greta = false) :
    (s.state = .scheduler → s.lastSched + cfg.minSched ≤ i.now →
      (i.rc = 0 → (step cfg s i).1.state = .changeState) ∧ (i.rc = 1 → (step cfg s i).1.state = .scheduler) ∧ (i.rc = 2 → (step cfg s i).1.state = .leon) ∧
      ((step cfg s i).1.finish = false ↔ i.rc = 0 ∨ i.rc = 1 ∨ i.rc = 2) ∧ (step cfg s i).1.queue = s.queue) ∧
    (s.state = .villains → (i.rc = 0 → (step cfg s i).1.state = .timeUpdate) ∧ (i.rc = 1 → (step cfg s i).1.state = .leon) ∧
      ((step cfg s i).1.finish = false ↔ i.rc = 0 ∨ i.rc = 1) ∧ (step cfg s i).1.queue = s.queue) ∧
    (s.state = .checkNodes → (i.rc = 0 → (step cfg s i).1.state = .timeUpdate) ∧ (i.rc = 1 → (step cfg s i).1.state = .changeState) ∧
      ((step cfg s i).1.finish = false ↔ i.rc = 0 ∨ i.rc = 1) ∧ (step cfg s i).1.queue = s.queue) ∧
    (s.state = .changeState → (i.rc = 0 → (step cfg s i).1.state = .timeUpdate) ∧ (i.rc = 1 → (step cfg s i).1.state = .scheduler) ∧
      (i.rc = 2 → (step cfg s i).1.state = .leon) ∧ ((step cfg s i).1.finish = false ↔ i.rc = 0 ∨ i.rc = 1 ∨ i.rc = 2) ∧
      (∀ c, c ∈ (step cfg s i).1.queue ↔ c ∈ s.queue ∨ (i.rc = 2 ∧ c = "Term"))) ∧
    (s.state = .leon → (step cfg s i).1.state = .timeUpdate ∧ (step cfg s i).1.finish = false ∧
      (∀ c, c ∈ (step cfg s i).1.queue ↔ c ∈ s.queue ∨ (i.rc = 1 ∧ c = "Term"))) := by
  have hadd : ∀ (q : List String) (c : String), c ∈ addCommand q "Term" ↔ c ∈ q ∨ c = "Term" := by
    intro q c
    unfold addCommand
    split
    · rename_i h
      exact ⟨Or.inl, fun h' => h'.elim id (fun e => e ▸ (by simpa using h))⟩
    · simp
  have e0 : ¬ (s.finish = true ∨ i.stop = true) := by simp [hf, hs]
  refine ⟨fun h hn => ?_, fun h => ?_, fun h => ?_, fun h => ?_, fun h => ?_⟩
  · have e : step cfg s i = stepScheduler cfg s i := by unfold step; rw [if_neg e0, hg, h]; rfl
    rw [e]
    unfold stepScheduler
    rw [if_pos hn]
    by_cases r0 : i.rc = 0
    · simp [r0, hf]
    · by_cases r1 : i.rc = 1
      · simp [r1, hf, h]
      · by_cases r2 : i.rc = 2
        · simp [r2, hf]
        · simp [r0, r1, r2]
  · have e : step cfg s i = stepOther cfg s i := by unfold step; rw [if_neg e0, hg, h]; rfl
    rw [e]
    unfold stepOther
    rw [h]
    dsimp only
    by_cases r1 : i.rc = 1
    · simp [r1, hf]
    · by_cases r0 : i.rc = 0
      · simp [r0, hf]
      · simp [r0, r1]
  · have e : step cfg s i = stepOther cfg s i := by unfold step; rw [if_neg e0, hg, h]; rfl
    rw [e]
    unfold stepOther
    rw [h]
    dsimp only
    by_cases r1 : i.rc = 1
    · simp [r1, hf]
    · by_cases r0 : i.rc = 0
      · simp [r0, hf]
      · simp [r0, r1]
  · have e : step cfg s i = stepOther cfg s i := by unfold step; rw [if_neg e0, hg, h]; rfl
    rw [e]
    unfold stepOther
    rw [h]
    dsimp only
    by_cases r2 : i.rc = 2
    · simp [r2, hf, hadd]
    · by_cases r1 : i.rc = 1
      · simp [r1, hf]
      · by_cases r0 : i.rc = 0
        · simp [r0, hf]
        · simp [r0, r1, r2]
  · have e : step cfg s i = stepOther cfg s i := by unfold step; rw [if_neg e0, hg, h]; rfl
    rw [e]
    unfold stepOther
    rw [h]
    dsimp only
    by_cases r1 : i.rc = 1
    · simp [r1, hf, hadd]
    · simp [r1, hf]

example : (step ⟨5, 300⟩ ⟨.scheduler, ["Term"], 100, 100, 100, false, false⟩ { now := 120, fin := 121, rc := 2 }).1.state = .leon := by decide

end Oar.Almighty
