import Verif.Commander

/-!
# C27: the launcher of executors
-/

namespace Oar.Commander

/-- Process `e` exists and has not ended. -/
def Alive (s : St) (e : Nat) : Prop := e < s.started.length ∧ s.live e = true

structure Inv (max : Nat) (s : St) : Prop where
  keys : (s.execs.map Prod.fst).Nodup
  exec : ∀ p ∈ s.execs, ∃ c, s.started[p.2]? = some c ∧ c.job = p.1
  live : ∀ e c, s.started[e]? = some c → s.live e = true → (c.job, e) ∈ s.execs
  fresh : ∀ e, s.started.length ≤ e → s.live e = true
  bound : s.execs.length ≤ max + 1
  perm : s.received.Perm (s.started ++ s.requeue ++ s.queue)
  clean : ∀ js, s.pc = .clean js → js.Nodup ∧ ∀ j ∈ js, j ∈ s.execs.map Prod.fst
  requeue : s.pc ≠ .inner → s.requeue = []
  block : s.pc = .recv → s.blocking = s.queue.isEmpty

theorem exec_some {s : St} {j e : Nat} (h : s.exec j = some e) : (j, e) ∈ s.execs := by
  unfold St.exec at h
  cases hf : s.execs.find? (fun p => p.1 == j) with
  | none => rw [hf] at h; exact absurd h (by simp)
  | some p =>
    rw [hf] at h
    have h1 := List.mem_of_find?_eq_some hf
    have h2 : p.1 = j := by simpa using List.find?_some hf
    have h3 : p.2 = e := by simpa using h
    rw [← h2, ← h3]
    exact h1

theorem exec_none {s : St} {j : Nat} (h : s.exec j = none) : j ∉ s.execs.map Prod.fst := by
  unfold St.exec at h
  intro hm
  obtain ⟨p, hp, e⟩ := List.mem_map.1 hm
  have : s.execs.find? (fun p => p.1 == j) = none := by simpa using h
  exact absurd (by simpa using e) (List.find?_eq_none.1 this p hp)

theorem exec_of_key {s : St} {j : Nat} (h : j ∈ s.execs.map Prod.fst) : ∃ e, s.exec j = some e := by
  cases he : s.exec j with
  | none => exact absurd h (exec_none he)
  | some e => exact ⟨e, rfl⟩

theorem key_unique {l : List (Nat × Nat)} (h : (l.map Prod.fst).Nodup) {j e e' : Nat} (h1 : (j, e) ∈ l) (h2 : (j, e') ∈ l) : e = e' := by
  induction l with
  | nil => cases h1
  | cons p l ih =>
    rw [List.map_cons, List.nodup_cons] at h
    rcases List.mem_cons.1 h1 with r1 | r1 <;> rcases List.mem_cons.1 h2 with r2 | r2
    · have := r1.trans r2.symm
      exact (Prod.mk.inj this).2
    · exact absurd (List.mem_map_of_mem (f := Prod.fst) r2) (by rw [show (j, e').1 = p.1 by rw [← r1]]; exact h.1)
    · exact absurd (List.mem_map_of_mem (f := Prod.fst) r1) (by rw [show (j, e).1 = p.1 by rw [← r2]]; exact h.1)
    · exact ih h.2 r1 r2

theorem filter_keys {l : List (Nat × Nat)} (h : (l.map Prod.fst).Nodup) (j : Nat) :
    ((l.filter (fun p => p.1 != j)).map Prod.fst).Nodup ∧ j ∉ (l.filter (fun p => p.1 != j)).map Prod.fst :=
  ⟨h.sublist (List.Sublist.map _ List.filter_sublist), by simp⟩

theorem filter_length {l : List (Nat × Nat)} {j : Nat} (h : j ∈ l.map Prod.fst) : (l.filter (fun p => p.1 != j)).length + 1 ≤ l.length := by
  induction l with
  | nil => cases h
  | cons p l ih =>
    by_cases hp : p.1 = j
    · rw [List.filter_cons_of_neg (by simpa using hp)]
      have := List.length_filter_le (fun p : Nat × Nat => p.1 != j) l
      simp only [List.length_cons]
      omega
    · rw [List.filter_cons_of_pos (by simpa using hp)]
      rw [List.map_cons, List.mem_cons] at h
      have := ih (h.resolve_left (fun e => hp e.symm))
      simp only [List.length_cons]
      omega

/-- Starting a process for a job that has no live one. -/
theorem inv_start {max : Nat} {s : St} (h : Inv max s) (hpc : s.pc = .inner) (hb : s.execs.length ≤ max) {c : Cmd} {q : List Cmd}
    (hq : s.queue = c :: q) (hd : ∀ e, (c.job, e) ∈ s.execs → s.live e = false) : Inv max ({ s with queue := q }.start c) where
  keys := by
    show ((s.execs.filter (fun p => p.1 != c.job) ++ [(c.job, s.started.length)]).map Prod.fst).Nodup
    rw [List.map_append, List.nodup_append]
    refine ⟨(filter_keys h.keys c.job).1, by simp, ?_⟩
    intro a ha b hb' e
    have : b = c.job := by simpa using hb'
    rw [e, this] at ha
    exact (filter_keys h.keys c.job).2 ha
  exec := by
    intro p hp
    rcases List.mem_append.1 hp with hp | hp
    · obtain ⟨d, hd1, hd2⟩ := h.exec p (List.mem_filter.1 hp).1
      refine ⟨d, ?_, hd2⟩
      show (s.started ++ [c])[p.2]? = some d
      rw [List.getElem?_append_left (List.getElem?_eq_some_iff.1 hd1).1]
      exact hd1
    · have : p = (c.job, s.started.length) := by simpa using hp
      rw [this]
      exact ⟨c, by show (s.started ++ [c])[s.started.length]? = some c; simp, rfl⟩
  live := by
    intro e d hd1 hl
    have hd1' : (s.started ++ [c])[e]? = some d := hd1
    show (d.job, e) ∈ s.execs.filter (fun p => p.1 != c.job) ++ [(c.job, s.started.length)]
    by_cases he : e < s.started.length
    · rw [List.getElem?_append_left he] at hd1'
      have hm := h.live e d hd1' hl
      refine List.mem_append_left _ (List.mem_filter.2 ⟨hm, ?_⟩)
      by_cases hj : d.job = c.job
      · rw [hj] at hm
        have := hd e hm
        rw [show s.live e = true from hl] at this
        cases this
      · simpa using hj
    · have he' := (List.getElem?_eq_some_iff.1 hd1').1
      simp only [List.length_append, List.length_cons, List.length_nil] at he'
      have : e = s.started.length := by omega
      subst this
      have : d = c := by simpa using hd1'.symm
      rw [this]
      exact List.mem_append_right _ (by simp)
  fresh := by
    intro e he
    have : (s.started ++ [c]).length ≤ e := he
    rw [List.length_append] at this
    exact h.fresh e (by simp at this; omega)
  bound := by
    show (s.execs.filter (fun p => p.1 != c.job) ++ [(c.job, s.started.length)]).length ≤ max + 1
    rw [List.length_append]
    have := List.length_filter_le (fun p : Nat × Nat => p.1 != c.job) s.execs
    simp only [List.length_cons, List.length_nil]
    omega
  perm := by
    show s.received.Perm ((s.started ++ [c]) ++ s.requeue ++ q)
    refine h.perm.trans ?_
    rw [hq]
    have h1 : (s.requeue ++ c :: q).Perm (c :: (s.requeue ++ q)) := List.perm_middle
    have h2 := (h1.append_left s.started)
    simpa [List.append_assoc] using h2
  clean := by intro js e; change s.pc = _ at e; rw [hpc] at e; cases e
  requeue := fun hne => absurd hpc hne
  block := by intro e; change s.pc = _ at e; rw [hpc] at e; cases e

theorem inv_step {max : Nat} {s s' : St} (h : Inv max s) (hs : Step max s s') : Inv max s' := by
  cases hs with
  | recv c hpc =>
    exact { h with
      perm := by
        show (s.received ++ [c]).Perm (s.started ++ s.requeue ++ (s.queue ++ [c]))
        rw [← List.append_assoc]
        exact h.perm.append_right _
      clean := by intro js e; cases e
      requeue := fun hne => absurd rfl hne
      block := by intro e; cases e }
  | timeout hpc hb =>
    exact { h with
      clean := by intro js e; cases e
      requeue := fun hne => absurd rfl hne
      block := by intro e; cases e }
  | turn c q hpc hg hq =>
    have hb : s.execs.length ≤ max := by
      unfold St.guard at hg
      simp only [Bool.and_eq_true, decide_eq_true_eq] at hg
      exact hg.2
    unfold St.treat
    cases he : ({ s with queue := q } : St).exec c.job with
    | none =>
      exact inv_start h hpc hb hq (fun e hm => absurd (List.mem_map_of_mem (f := Prod.fst) hm) (exec_none he))
    | some e =>
      dsimp only
      split
      · rename_i hl
        refine inv_start h hpc hb hq (fun e' hm => ?_)
        rw [key_unique h.keys hm (exec_some he)]
        exact hl
      · exact { h with
          perm := by
            show s.received.Perm (s.started ++ (s.requeue ++ [c]) ++ q)
            refine h.perm.trans ?_
            rw [hq]
            simp [List.append_assoc]
          clean := by intro js e; change s.pc = _ at e; rw [hpc] at e; cases e
          requeue := fun hne => absurd hpc hne
          block := by intro e; change s.pc = _ at e; rw [hpc] at e; cases e }
  | leave hpc hg =>
    exact { h with
      perm := by
        show s.received.Perm (s.started ++ [] ++ (s.queue ++ s.requeue))
        refine h.perm.trans ?_
        rw [List.append_nil, List.append_assoc]
        exact List.perm_append_comm.append_left _
      clean := by
        intro js e
        have : js = s.execs.map Prod.fst := by injection e with e; exact e.symm
        rw [this]
        exact ⟨h.keys, fun j hj => hj⟩
      requeue := fun _ => rfl
      block := by intro e; cases e }
  | clean j js e hpc he =>
    obtain ⟨hn, hj⟩ := h.clean _ hpc
    have hsub : ∀ p ∈ (if s.live e = false then s.execs.filter (fun p => p.1 != j) else s.execs), p ∈ s.execs := by
      intro p hp
      split at hp
      · exact (List.mem_filter.1 hp).1
      · exact hp
    exact { h with
      keys := by
        show (List.map Prod.fst (if s.live e = false then s.execs.filter (fun p => p.1 != j) else s.execs)).Nodup
        split
        · exact (filter_keys h.keys j).1
        · exact h.keys
      exec := fun p hp => h.exec p (hsub p hp)
      live := by
        intro e' c hc hl
        have hm := h.live e' c hc hl
        show (c.job, e') ∈ (if s.live e = false then s.execs.filter (fun p => p.1 != j) else s.execs)
        split
        · rename_i hd
          refine List.mem_filter.2 ⟨hm, ?_⟩
          by_cases hcj : c.job = j
          · rw [hcj] at hm
            have := key_unique h.keys hm (exec_some he)
            have hl' : s.live e' = true := hl
            rw [this, hd] at hl'
            cases hl'
          · simpa using hcj
        · exact hm
      bound := by
        show (if s.live e = false then s.execs.filter (fun p => p.1 != j) else s.execs).length ≤ max + 1
        have := h.bound
        split
        · have := List.length_filter_le (fun p : Nat × Nat => p.1 != j) s.execs
          omega
        · exact this
      clean := by
        intro js' e1
        have : js' = js := by injection e1 with e1; exact e1.symm
        rw [this]
        have hn' := List.nodup_cons.1 hn
        refine ⟨hn'.2, fun x hx => ?_⟩
        show x ∈ List.map Prod.fst (if s.live e = false then s.execs.filter (fun p => p.1 != j) else s.execs)
        have hxm := hj x (List.mem_cons_of_mem _ hx)
        split
        · obtain ⟨p, hp, ep⟩ := List.mem_map.1 hxm
          refine List.mem_map.2 ⟨p, List.mem_filter.2 ⟨hp, ?_⟩, ep⟩
          have : p.1 ≠ j := by rw [ep]; exact fun e2 => hn'.1 (e2 ▸ hx)
          simpa using this
        · exact hxm
      requeue := fun _ => h.requeue (by rw [hpc]; simp)
      block := by intro e1; cases e1 }
  | done hpc =>
    exact { h with
      clean := by intro js e; cases e
      requeue := fun _ => h.requeue (by rw [hpc]; simp)
      block := fun _ => rfl }
  | die e he =>
    exact { h with
      live := by
        intro e' c hc hl
        have : (if e' = e then false else s.live e') = true := hl
        split at this
        · cases this
        · exact h.live e' c hc this
      fresh := by
        intro e' he'
        show (if e' = e then false else s.live e') = true
        have : s.started.length ≤ e' := he'
        rw [if_neg (by omega)]
        exact h.fresh e' this }

theorem Reachable.inv {max : Nat} {s : St} (h : Reachable max s) : Inv max s := by
  induction h with
  | init =>
    exact {
      keys := List.nodup_nil
      exec := fun p hp => absurd hp List.not_mem_nil
      live := fun e c hc _ => by cases hc
      fresh := fun _ _ => rfl
      bound := Nat.zero_le _
      perm := List.Perm.refl _
      clean := fun js e => by cases e
      requeue := fun _ => rfl
      block := fun _ => rfl }
  | step s s' _ hs ih => exact inv_step ih hs

/-! ## The theorems -/

/-- For every order of arrival of the commands and every end of the processes: at most one process is alive for each job. -/
theorem one_executor {max : Nat} {s : St} (h : Reachable max s) {e e' : Nat} {c c' : Cmd} (he : Alive s e) (he' : Alive s e')
    (hc : s.started[e]? = some c) (hc' : s.started[e']? = some c') (hj : c.job = c'.job) : e = e' := by
  have h1 := h.inv.live e c hc he.2
  have h2 := h.inv.live e' c' hc' he'.2
  rw [← hj] at h2
  exact key_unique h.inv.keys h1 h2

/-- No command is lost, duplicated or invented: the commands received are, each one once, those executed and those waiting. -/
theorem commands_conserved {max : Nat} {s : St} (h : Reachable max s) : s.received.Perm (s.started ++ (s.requeue ++ s.queue)) := by
  rw [← List.append_assoc]
  exact h.inv.perm

theorem nodup_length_le {l k : List Nat} (hn : l.Nodup) (hk : ∀ x ∈ l, x ∈ k) : l.length ≤ k.length := by
  induction l generalizing k with
  | nil => exact Nat.zero_le _
  | cons x l ih =>
    have hx : x ∈ k := hk x (by simp)
    have hn' := List.nodup_cons.1 hn
    have := ih (k := k.erase x) hn'.2 (fun c hc =>
      (List.mem_erase_of_ne (fun e : c = x => hn'.1 (e ▸ hc))).2 (hk c (List.mem_cons_of_mem _ hc)))
    rw [List.length_erase_of_mem hx] at this
    have hpos : 0 < k.length := List.length_pos_of_mem hx
    simp only [List.length_cons]
    omega

/-- At most one more process than configured is alive. -/
theorem executors_bounded_partial {max : Nat} {s : St} (h : Reachable max s) (l : List Nat) (hn : l.Nodup) (hl : ∀ e ∈ l, Alive s e) :
    l.length ≤ max + 1 := by
  have hsub : ∀ e ∈ l, e ∈ s.execs.map Prod.snd := by
    intro e he
    obtain ⟨h1, h2⟩ := hl e he
    exact List.mem_map.2 ⟨_, h.inv.live e s.started[e] (List.getElem?_eq_getElem h1) h2, rfl⟩
  have := nodup_length_le hn hsub
  rw [List.length_map] at this
  exact Nat.le_trans this h.inv.bound

/-- The launcher never waits without timeout while commands are waiting. -/
theorem never_blocked {max : Nat} {s : St} (h : Reachable max s) (hpc : s.pc = .recv) (hb : s.blocking = true) : s.queue = [] ∧ s.requeue = [] := by
  refine ⟨?_, h.inv.requeue (by rw [hpc]; simp)⟩
  have := h.inv.block hpc
  rw [hb] at this
  simpa using this.symm

/-- The loop never gets stuck: it always has a next step (without the end of any process) unless it waits for a message with nothing
to do. -/
theorem loop_progress {max : Nat} {s : St} (h : Reachable max s) : (s.pc = .recv ∧ s.blocking = true) ∨ ∃ s', Step max s s' ∧ s'.live = s.live := by
  cases hpc : s.pc with
  | recv =>
    cases hb : s.blocking with
    | true => exact Or.inl ⟨rfl, rfl⟩
    | false => exact Or.inr ⟨_, .timeout s hpc hb, rfl⟩
  | inner =>
    right
    cases hg : s.guard max with
    | true =>
      cases hq : s.queue with
      | nil => unfold St.guard at hg; rw [hq] at hg; simp at hg
      | cons c q =>
        refine ⟨_, .turn s c q hpc hg hq, ?_⟩
        unfold St.treat
        split
        · rfl
        · split <;> rfl
    | false => exact ⟨_, .leave s hpc hg, rfl⟩
  | clean js =>
    right
    cases js with
    | nil => exact ⟨_, .done s hpc, rfl⟩
    | cons j js =>
      obtain ⟨e, he⟩ := exec_of_key ((h.inv.clean _ hpc).2 j (by simp))
      exact ⟨_, .clean s j js e hpc he, rfl⟩

/-- Several steps of the loop alone: no message is received and no process ends. -/
inductive Alone (max : Nat) : St → St → Prop
  | refl (s : St) : Alone max s s
  | step (s s' s'' : St) (h : Step max s s') (hl : s'.live = s.live) (hr : s'.received = s.received) (h' : Alone max s' s'') : Alone max s s''

theorem Alone.trans {max : Nat} {a b c : St} (h : Alone max a b) (h' : Alone max b c) : Alone max a c := by
  induction h with
  | refl => exact h'
  | step s s' s'' hs hl hr _ ih => exact .step s s' _ hs hl hr (ih h')

theorem clean_all {max : Nat} (js : List Nat) : ∀ s : St, Reachable max s → s.pc = .clean js → (∀ e, ¬ Alive s e) →
    (∀ p ∈ s.execs, p.1 ∈ js) → ∃ s', Alone max s s' ∧ s'.pc = .clean [] ∧ s'.execs = [] ∧ s'.queue = s.queue ∧ s'.started = s.started := by
  induction js with
  | nil =>
    intro s _ hpc _ hk
    refine ⟨s, .refl s, hpc, ?_, rfl, rfl⟩
    cases he : s.execs with
    | nil => rfl
    | cons p ps => exact absurd (hk p (by rw [he]; simp)) (by simp)
  | cons j js ih =>
    intro s hr hpc hd hk
    obtain ⟨e, he⟩ := exec_of_key ((hr.inv.clean _ hpc).2 j (by simp))
    have hstep := Step.clean (max := max) s j js e hpc he
    have hdead : s.live e = false := by
      obtain ⟨c, hc, _⟩ := hr.inv.exec _ (exec_some he)
      cases hl : s.live e with
      | false => rfl
      | true => exact absurd ⟨(List.getElem?_eq_some_iff.1 hc).1, hl⟩ (hd e)
    obtain ⟨s', h1, h2, h3, h4, h5⟩ := ih _ (.step _ _ hr hstep) rfl hd (by
      intro p hp
      have hp' : p ∈ (if s.live e = false then s.execs.filter (fun p => p.1 != j) else s.execs) := hp
      rw [if_pos hdead] at hp'
      obtain ⟨hp1, hp2⟩ := List.mem_filter.1 hp'
      rcases List.mem_cons.1 (hk p hp1) with e1 | e1
      · simp [e1] at hp2
      · exact e1)
    exact ⟨s', .step _ _ _ hstep rfl rfl h1, h2, h3, h4, h5⟩

/-- From the inner loop, with a queue and no live process: the first command is executed. -/
theorem inner_starts {max : Nat} {s : St} (hr : Reachable max s) (hpc : s.pc = .inner) (hg : s.guard max = true) (hd : ∀ e, ¬ Alive s e)
    {c : Cmd} {q : List Cmd} (hq : s.queue = c :: q) : ∃ s', Alone max s s' ∧ s'.started = s.started ++ [c] := by
  refine ⟨_, .step _ _ _ (.turn s c q hpc hg hq) ?_ ?_ (.refl _), ?_⟩
  all_goals unfold St.treat
  · split
    · rfl
    · split <;> rfl
  · split
    · rfl
    · split <;> rfl
  · split
    · rfl
    · rename_i e he
      have he' : s.exec c.job = some e := he
      obtain ⟨d, hc, _⟩ := hr.inv.exec _ (exec_some he')
      rw [if_pos]
      · rfl
      · cases hl : s.live e with
        | false => rfl
        | true => exact absurd ⟨(List.getElem?_eq_some_iff.1 hc).1, hl⟩ (hd e)

/-- Progress: when commands wait and no process is alive, the loop alone executes the first command, without any new message. -/
theorem waiting_served {max : Nat} {s : St} (hr : Reachable max s) (hpc : s.pc = .recv) (hd : ∀ e, ¬ Alive s e) {c : Cmd} {q : List Cmd}
    (hq : s.queue = c :: q) : ∃ s', Alone max s s' ∧ s'.started = s.started ++ [c] := by
  have hb : s.blocking = false := by rw [hr.inv.block hpc, hq]; rfl
  have h1 := Step.timeout (max := max) s hpc hb
  have r1 := Reachable.step _ _ hr h1
  cases hg : ({ s with pc := .inner } : St).guard max with
  | true =>
    obtain ⟨s', ha, hs⟩ := inner_starts r1 rfl hg hd hq
    exact ⟨s', .step _ _ _ h1 rfl rfl ha, hs⟩
  | false =>
    have h2 := Step.leave (max := max) _ rfl hg
    have r2 := Reachable.step _ _ r1 h2
    obtain ⟨s3, ha3, hpc3, he3, hq3, hs3⟩ := clean_all _ _ r2 rfl hd (fun p hp => List.mem_map_of_mem (f := Prod.fst) hp)
    have hq3' : s3.queue = c :: q := by
      have hreq : s.requeue = [] := hr.inv.requeue (by rw [hpc]; simp)
      rw [hq3]
      show s.queue ++ s.requeue = _
      rw [hreq, hq, List.append_nil]
    have hreach : ∀ {a b : St}, Reachable max a → Alone max a b → Reachable max b ∧ b.live = a.live := by
      intro a b ha hab
      induction hab with
      | refl => exact ⟨ha, rfl⟩
      | step x y z hxy hl _ _ ih =>
        obtain ⟨h1, h2⟩ := ih (.step _ _ ha hxy)
        exact ⟨h1, h2.trans hl⟩
    obtain ⟨r3, hl3⟩ := hreach r2 ha3
    have h4 := Step.done (max := max) s3 hpc3
    have r4 := Reachable.step _ _ r3 h4
    have h5 := Step.timeout (max := max) { s3 with pc := .recv, blocking := s3.queue.isEmpty } rfl (by
      show s3.queue.isEmpty = false
      rw [hq3']; rfl)
    have r5 := Reachable.step _ _ r4 h5
    obtain ⟨s', ha, hs⟩ := inner_starts (max := max) r5 rfl (by
        unfold St.guard
        show (!s3.queue.isEmpty && decide (s3.execs.length ≤ max)) = true
        rw [hq3', he3]
        simp) (by
        intro e he
        refine hd e ⟨?_, ?_⟩
        · have := he.1
          show e < s.started.length
          rw [show s.started = s3.started from hs3.symm]
          exact this
        · have := he.2
          rw [show s.live = s3.live from hl3.symm]
          exact this) (q := q) (c := c) hq3'
    refine ⟨s', .step _ _ _ h1 rfl rfl (.step _ _ _ h2 rfl rfl (ha3.trans (.step _ _ _ h4 rfl rfl (.step _ _ _ h5 rfl rfl ha)))), ?_⟩
    rw [hs]
    show s3.started ++ [c] = _
    rw [hs3]

/-! ## Witnesses -/

/-- With a maximum of 1, two processes are alive. -/
theorem executors_bounded_violated : ∃ s, Reachable 1 s ∧ Alive s 0 ∧ Alive s 1 := by
  have r0 : Reachable 1 init := .init
  have r1 := Reachable.step _ _ r0 (.recv _ ⟨7, "OAREXEC"⟩ rfl)
  have r2 := Reachable.step _ _ r1 (.turn _ _ _ rfl (by decide) rfl)
  have r3 := Reachable.step _ _ r2 (.leave _ rfl (by decide))
  have r4 := Reachable.step _ _ r3 (.clean _ 7 [] 0 rfl (by decide))
  have r5 := Reachable.step _ _ r4 (.done _ rfl)
  have r6 := Reachable.step _ _ r5 (.recv _ ⟨8, "OAREXEC"⟩ rfl)
  have r7 := Reachable.step _ _ r6 (.turn _ _ _ rfl (by decide) rfl)
  exact ⟨_, r7, ⟨by decide, rfl⟩, ⟨by decide, rfl⟩⟩

/-- Two commands of one job are executed in the reverse order of their arrival: the first one has been put aside when the previous
process of the job ends. -/
theorem order_violated : ∃ s, Reachable 25 s ∧ s.received = [⟨7, "OARRUNJOB"⟩, ⟨7, "OAREXEC"⟩, ⟨7, "LEONEXTERMINATE"⟩] ∧
    s.started = [⟨7, "OARRUNJOB"⟩, ⟨7, "LEONEXTERMINATE"⟩] ∧ s.requeue = [⟨7, "OAREXEC"⟩] := by
  have r0 : Reachable 25 init := .init
  let a : Cmd := ⟨7, "OARRUNJOB"⟩
  let b : Cmd := ⟨7, "OAREXEC"⟩
  let c : Cmd := ⟨7, "LEONEXTERMINATE"⟩
  have r1 : Reachable 25 ⟨.inner, [a], [], [], true, [a], [], fun _ => true⟩ := .step _ _ r0 (.recv _ a rfl)
  have r2 : Reachable 25 ⟨.inner, [], [], [(7, 0)], true, [a], [a], fun _ => true⟩ := .step _ _ r1 (.turn _ a [] rfl rfl rfl)
  have r3 : Reachable 25 ⟨.clean [7], [], [], [(7, 0)], true, [a], [a], fun _ => true⟩ := .step _ _ r2 (.leave _ rfl rfl)
  have r4 : Reachable 25 ⟨.clean [], [], [], [(7, 0)], true, [a], [a], fun _ => true⟩ := .step _ _ r3 (.clean _ 7 [] 0 rfl rfl)
  have r5 : Reachable 25 ⟨.recv, [], [], [(7, 0)], true, [a], [a], fun _ => true⟩ := .step _ _ r4 (.done _ rfl)
  have r6 : Reachable 25 ⟨.inner, [b], [], [(7, 0)], true, [a, b], [a], fun _ => true⟩ := .step _ _ r5 (.recv _ b rfl)
  have r7 : Reachable 25 ⟨.inner, [], [b], [(7, 0)], true, [a, b], [a], fun _ => true⟩ := .step _ _ r6 (.turn _ b [] rfl rfl rfl)
  have r8 : Reachable 25 ⟨.clean [7], [b], [], [(7, 0)], true, [a, b], [a], fun _ => true⟩ := .step _ _ r7 (.leave _ rfl rfl)
  have r9 : Reachable 25 ⟨.clean [], [b], [], [(7, 0)], true, [a, b], [a], fun _ => true⟩ := .step _ _ r8 (.clean _ 7 [] 0 rfl rfl)
  have r10 : Reachable 25 ⟨.recv, [b], [], [(7, 0)], false, [a, b], [a], fun _ => true⟩ := .step _ _ r9 (.done _ rfl)
  have r11 : Reachable 25 ⟨.inner, [b, c], [], [(7, 0)], false, [a, b, c], [a], fun _ => true⟩ := .step _ _ r10 (.recv _ c rfl)
  have r12 : Reachable 25 ⟨.inner, [c], [b], [(7, 0)], false, [a, b, c], [a], fun _ => true⟩ := .step _ _ r11 (.turn _ b [c] rfl rfl rfl)
  have r13 : Reachable 25 ⟨.inner, [c], [b], [(7, 0)], false, [a, b, c], [a], fun x => if x = 0 then false else true⟩ :=
    .step _ _ r12 (.die _ 0 (by simp))
  have r14 : Reachable 25 ⟨.inner, [], [b], [(7, 1)], false, [a, b, c], [a, c], fun x => if x = 0 then false else true⟩ :=
    .step _ _ r13 (.turn _ c [] rfl rfl rfl)
  exact ⟨_, r14, rfl, rfl, rfl⟩

/-- The hypotheses of `waiting_served` are met: a command waits behind a process that has ended. -/
example : ∃ s, Reachable 0 s ∧ s.pc = .recv ∧ s.queue = [⟨8, "OAREXEC"⟩] ∧ s.execs = [(7, 0)] ∧ ∀ e, ¬ Alive s e := by
  have r0 : Reachable 0 init := .init
  let a : Cmd := ⟨7, "OAREXEC"⟩
  let b : Cmd := ⟨8, "OAREXEC"⟩
  have r1 : Reachable 0 ⟨.inner, [a], [], [], true, [a], [], fun _ => true⟩ := .step _ _ r0 (.recv _ a rfl)
  have r2 : Reachable 0 ⟨.inner, [], [], [(7, 0)], true, [a], [a], fun _ => true⟩ := .step _ _ r1 (.turn _ a [] rfl rfl rfl)
  have r3 : Reachable 0 ⟨.clean [7], [], [], [(7, 0)], true, [a], [a], fun _ => true⟩ := .step _ _ r2 (.leave _ rfl rfl)
  have r4 : Reachable 0 ⟨.clean [], [], [], [(7, 0)], true, [a], [a], fun _ => true⟩ := .step _ _ r3 (.clean _ 7 [] 0 rfl rfl)
  have r5 : Reachable 0 ⟨.recv, [], [], [(7, 0)], true, [a], [a], fun _ => true⟩ := .step _ _ r4 (.done _ rfl)
  have r6 : Reachable 0 ⟨.inner, [b], [], [(7, 0)], true, [a, b], [a], fun _ => true⟩ := .step _ _ r5 (.recv _ b rfl)
  have r7 : Reachable 0 ⟨.clean [7], [b], [], [(7, 0)], true, [a, b], [a], fun _ => true⟩ := .step _ _ r6 (.leave _ rfl rfl)
  have r8 : Reachable 0 ⟨.clean [], [b], [], [(7, 0)], true, [a, b], [a], fun _ => true⟩ := .step _ _ r7 (.clean _ 7 [] 0 rfl rfl)
  have r9 : Reachable 0 ⟨.recv, [b], [], [(7, 0)], false, [a, b], [a], fun _ => true⟩ := .step _ _ r8 (.done _ rfl)
  have r10 : Reachable 0 ⟨.recv, [b], [], [(7, 0)], false, [a, b], [a], fun x => if x = 0 then false else true⟩ :=
    .step _ _ r9 (.die _ 0 (by simp))
  refine ⟨_, r10, rfl, rfl, rfl, ?_⟩
  rintro e ⟨h1, h2⟩
  have h1' : e < 1 := h1
  have : e = 0 := by omega
  subst this
  exact absurd h2 (by decide)

end Oar.Commander
