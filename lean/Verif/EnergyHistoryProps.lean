import Verif.EnergyHistory

/-!
# C116: a node is halted only if no job ran on it during the idle delay
-/

namespace Oar.EnergyHist

open Oar.Energy

/-- What every history keeps. -/
structure Inv (s : State) : Prop where
  time : s.now ≤ s.clock
  begun : ∀ m, s.phase m = .active → s.start m ≤ s.clock
  none : ∀ m, s.phase m = .waiting ∨ s.phase m = .toError → ∀ a ∈ s.assigned, a.1 ≠ m
  gantt : ∀ a ∈ s.assigned, s.phase a.1 = .active → a.2 ∈ s.alive → a ∈ s.gres ∧ ∃ d ≤ s.now, (a.1, d) ∈ s.pred
  past : ∀ m d, s.phase m = .over d → d ≤ s.clock
  last : ∀ a ∈ s.assigned, ∀ d, s.phase a.1 = .over d → ∀ r ∈ s.res, r.id = a.2 → d ≤ r.lastJob

theorem initial_inv {s : State} (h : Initial s) : Inv s := by
  obtain ⟨h1, h2, _, _, _, h6⟩ := h
  refine ⟨h6, fun m hm => ?_, ?_, ?_, fun m d hm => ?_, ?_⟩
  · rw [h1 m] at hm; cases hm
  · rw [h2]; intro m _ a ha; cases ha
  · rw [h2]; intro a ha; cases ha
  · rw [h1 m] at hm; cases hm
  · rw [h2]; intro a ha; cases ha

theorem set_same {α} (f : Nat → α) (m : Nat) (a : α) : set f m a m = a := if_pos rfl
theorem set_other {α} (f : Nat → α) {m i : Nat} (a : α) (h : i ≠ m) : set f m a i = f i := if_neg h

theorem inv_begin {s : State} (h : Inv s) (plan : List (Nat × Int)) (planRes : List (Nat × Nat)) : Inv (beginRound s plan planRes) := by
  refine ⟨Int.le_refl _, h.begun, h.none, ?_, h.past, h.last⟩
  intro a ha hp hal
  have hp' : s.phase a.1 = .active := hp
  have hal' : a.2 ∈ (s.res.filter (fun r => r.state == "Alive")).map (·.id) := hal
  have hm : a ∈ s.assigned.filter (fun a => s.phase a.1 == .active) := List.mem_filter.2 ⟨ha, by simpa using hp'⟩
  refine ⟨List.mem_append_left _ (List.mem_filter.2 ⟨hm, List.contains_iff_mem.2 hal'⟩), s.start a.1, h.begun _ hp', List.mem_append_left _ (List.mem_map.2 ⟨a, hm, rfl⟩)⟩

theorem inv_launch {s : State} (h : Inv s) (m : Nat) : Inv (launch s m) := by
  unfold launch
  split
  · rename_i hc
    obtain ⟨hw, hd⟩ := hc
    obtain ⟨p, hp, hpd⟩ := List.any_eq_true.1 hd
    rw [Bool.and_eq_true, beq_iff_eq, decide_eq_true_eq] at hpd
    have key : ∀ a, a ∈ s.assigned ++ s.gres.filter (fun a => a.1 == m) → (a ∈ s.assigned ∧ a.1 ≠ m) ∨ (a ∈ s.gres ∧ a.1 = m) := by
      intro a ha
      rcases List.mem_append.1 ha with ha | ha
      · exact .inl ⟨ha, h.none m (.inl hw) a ha⟩
      · rw [List.mem_filter, beq_iff_eq] at ha
        exact .inr ha
    refine ⟨h.time, ?_, ?_, ?_, ?_, ?_⟩
    · intro i hi
      dsimp only at hi ⊢
      by_cases e : i = m
      · subst e; rw [set_same]; exact h.time
      · rw [set_other _ _ e] at hi ⊢; exact h.begun i hi
    · intro i hi a ha
      dsimp only at hi
      have e : i ≠ m := by rintro rfl; rw [set_same] at hi; simp at hi
      rw [set_other _ _ e] at hi
      rcases key a ha with ⟨ha, _⟩ | ⟨_, ha⟩
      · exact h.none i hi a ha
      · rw [ha]; exact e.symm
    · intro a ha hp' hal
      dsimp only at hp'
      rcases key a ha with ⟨ha, hne⟩ | ⟨ha, hem⟩
      · rw [set_other _ _ hne] at hp'
        exact h.gantt a ha hp' hal
      · exact ⟨ha, p.2, hpd.2, by rw [hem, ← hpd.1]; exact hp⟩
    · intro i d hi
      dsimp only at hi
      have e : i ≠ m := by rintro rfl; rw [set_same] at hi; cases hi
      rw [set_other _ _ e] at hi
      exact h.past i d hi
    · intro a ha d hi
      dsimp only at hi
      have e : a.1 ≠ m := by intro e; rw [e, set_same] at hi; cases hi
      rw [set_other _ _ e] at hi
      rcases key a ha with ⟨ha, _⟩ | ⟨_, ha⟩
      · exact h.last a ha d hi
      · exact absurd ha e
  · exact h

/-- A change of the phase of a job to `lost`, or from waiting to toError, keeps everything. -/
theorem inv_phase {s : State} (h : Inv s) (m : Nat) {p : Phase} (h1 : p ≠ .waiting) (h2 : p ≠ .active) (h3 : ∀ d, p ≠ .over d) (h4 : p = .toError → s.phase m = .waiting) :
    Inv { s with phase := set s.phase m p } := by
  have key : ∀ i q, (q = .active ∨ ∃ d, q = .over d) → set s.phase m p i = q → s.phase i = q := by
    intro i q hq hi
    by_cases e : i = m
    · subst e
      rw [set_same] at hi
      rcases hq with rfl | ⟨d, rfl⟩
      · exact absurd hi h2
      · exact absurd hi (h3 d)
    · rw [set_other _ _ e] at hi; exact hi
  refine ⟨h.time, fun i hi => h.begun i (key i _ (.inl rfl) hi), fun i hi => h.none i ?_, fun a ha hp => h.gantt a ha (key _ _ (.inl rfl) hp),
    fun i d hi => h.past i d (key i _ (.inr ⟨d, rfl⟩) hi), fun a ha d hi => h.last a ha d (key _ _ (.inr ⟨d, rfl⟩) hi)⟩
  dsimp only at hi
  by_cases e : i = m
  · subst e
    rw [set_same] at hi
    rcases hi with hi | hi
    · exact absurd hi h1
    · exact .inl (h4 hi)
  · rw [set_other _ _ e] at hi; exact hi

theorem lastDate_id (asg : List (Nat × Nat)) (m : Nat) (d : Int) (r : Res) : (lastDate asg m d r).id = r.id := by unfold lastDate; split <;> rfl

theorem inv_finish {s : State} (h : Inv s) (m : Nat) : Inv (finish s m) := by
  unfold finish
  split
  · refine ⟨h.time, ?_, ?_, ?_, ?_, ?_⟩
    · intro i hi
      dsimp only at hi
      have e : i ≠ m := by rintro rfl; rw [set_same] at hi; cases hi
      rw [set_other _ _ e] at hi
      exact h.begun i hi
    · intro i hi
      dsimp only at hi
      have e : i ≠ m := by rintro rfl; rw [set_same] at hi; simp at hi
      rw [set_other _ _ e] at hi
      exact h.none i hi
    · intro a ha hi
      dsimp only at hi
      have e : a.1 ≠ m := by intro e; rw [e, set_same] at hi; cases hi
      rw [set_other _ _ e] at hi
      exact h.gantt a ha hi
    · intro i d hi
      dsimp only at hi
      by_cases e : i = m
      · subst e; rw [set_same] at hi; cases hi; exact Int.le_refl _
      · rw [set_other _ _ e] at hi; exact h.past i d hi
    · intro a ha d hi r' hr' hid
      dsimp only at hi hr'
      obtain ⟨r, hr, rfl⟩ := List.mem_map.1 hr'
      rw [lastDate_id] at hid
      by_cases e : a.1 = m
      · rw [e, set_same] at hi
        cases hi
        have : (m, r.id) ∈ s.assigned := by rw [hid, ← e]; exact ha
        unfold lastDate
        rw [if_pos (by simpa using this)]
        exact Int.le_refl _
      · rw [set_other _ _ e] at hi
        unfold lastDate
        split
        · exact h.past _ _ hi
        · exact h.last a ha d hi r hr hid
  · exact h

theorem inv_step {s : State} (h : Inv s) (e : Event) : Inv (step s e) := by
  cases e with
  | tick d =>
    refine ⟨?_, fun m hm => ?_, h.none, h.gantt, fun m x hm => ?_, h.last⟩
    · show s.now ≤ s.clock + d
      have := h.time; omega
    · show s.start m ≤ s.clock + d
      have := h.begun m hm; omega
    · show x ≤ s.clock + d
      have := h.past m x hm; omega
  | beginRound plan planRes => exact inv_begin h plan planRes
  | launch m => exact inv_launch h m
  | fail m =>
    unfold step
    dsimp only
    split
    · rename_i hw
      exact inv_phase h m (by simp) (by simp) (by simp) (fun _ => hw)
    · exact h
  | finish m => exact inv_finish h m
  | cut m =>
    unfold step
    dsimp only
    split
    · exact inv_phase h m (by simp) (by simp) (by simp) (by simp)
    · exact h
  | change id st up =>
    refine ⟨h.time, h.begun, h.none, h.gantt, h.past, ?_⟩
    intro a ha d hp r' hr' hid
    obtain ⟨r, hr, rfl⟩ := List.mem_map.1 hr'
    have hid' : r.id = a.2 := by
      split at hid <;> exact hid
    have := h.last a ha d hp r hr hid'
    split <;> exact this
  | wake n => exact ⟨h.time, h.begun, h.none, h.gantt, h.past, h.last⟩

theorem inv_run : ∀ (h : List Event) {s : State}, Inv s → Inv (run s h)
  | [], _, hs => hs
  | e :: h, _, hs => inv_run h (inv_step hs e)

/-- **C116.** Whatever the history, when a node is halted each job placed on one of its resources of the energy saving ended more than the idle delay ago, unless
the server stopped while its end was recorded, or the resource was not alive when the round began. -/
theorem halt_idle_partial {s : State} (h0 : Initial s) (h : List Event) {c : Cfg} {sleep idle : Int} (hs : c.sleep = some sleep) (hi : c.idle = some idle)
    (hc : (c.sleepCmd || c.intSleep) = true) {n : String} (hn : n ∈ halted c (run s h)) {r : Res} (hr : r ∈ (run s h).res) (hrn : r.net = n) (hm : Managed r)
    {m : Nat} (hon : On (run s h) m r) :
    (∃ d, (run s h).phase m = .over d ∧ d < (run s h).now - idle) ∨ (∃ d, (run s h).phase m = .lost d) ∨
      ((run s h).phase m = .active ∧ r.id ∉ (run s h).alive) := by
  have hv : Inv (run s h) := inv_run h (initial_inv h0)
  have hh := (halt_iff c _ _ sleep idle hs hi hc n).1 hn
  cases hp : (run s h).phase m with
  | waiting => exact absurd rfl (hv.none m (.inl hp) _ hon)
  | active =>
    by_cases ha : r.id ∈ (run s h).alive
    · obtain ⟨hg, d, hd, hpd⟩ := hv.gantt _ hon hp ha
      have := hh.2.2.2.1 m d r hpd hg hr hrn hm.2.2.1
      have : (run s h).now < d := this
      omega
    · exact .inr (.inr ⟨rfl, ha⟩)
  | toError => exact absurd rfl (hv.none m (.inr hp) _ hon)
  | over d =>
    have h1 := hv.last _ hon d hp r hr rfl
    have h2 := hh.2.1 r hr hrn hm
    exact .inl ⟨d, rfl, by omega⟩
  | lost d => exact .inr (.inl ⟨d, rfl⟩)

/-! ## The nodes that are idle are halted -/

/-- The date of a resource is the one it had at the beginning or the one of the end of a job placed on it. -/
def Dated (s0 s : State) : Prop := ∀ r ∈ s.res, (∃ r0 ∈ s0.res, r0.id = r.id ∧ r.lastJob = r0.lastJob) ∨ ∃ m, On s m r ∧ s.phase m = .over r.lastJob

theorem on_mono {s : State} (e : Event) {m : Nat} {i : Nat} (h : (m, i) ∈ s.assigned) : (m, i) ∈ (step s e).assigned := by
  cases e with
  | launch k =>
    show _ ∈ (launch s k).assigned
    unfold launch
    split
    · exact List.mem_append_left _ h
    · exact h
  | fail k => unfold step; dsimp only; split <;> exact h
  | finish k => show _ ∈ (finish s k).assigned; unfold finish; split <;> exact h
  | cut k => unfold step; dsimp only; split <;> exact h
  | _ => exact h

theorem over_mono {s : State} (e : Event) {m : Nat} {d : Int} (h : s.phase m = .over d) : (step s e).phase m = .over d := by
  cases e with
  | launch k =>
    show (launch s k).phase m = _
    unfold launch
    split
    · rename_i hc
      have : m ≠ k := by rintro rfl; rw [hc.1] at h; cases h
      exact (set_other _ _ this).trans h
    · exact h
  | fail k =>
    unfold step
    dsimp only
    split
    · rename_i hc
      have : m ≠ k := by rintro rfl; rw [h] at hc; cases hc
      exact (set_other _ _ this).trans h
    · exact h
  | finish k =>
    show (finish s k).phase m = _
    unfold finish
    split
    · rename_i hc
      have : m ≠ k := by rintro rfl; rw [h] at hc; simp [live] at hc
      exact (set_other _ _ this).trans h
    · exact h
  | cut k =>
    unfold step
    dsimp only
    split
    · rename_i hc
      have : m ≠ k := by rintro rfl; rw [h] at hc; simp [live] at hc
      exact (set_other _ _ this).trans h
    · exact h
  | _ => exact h

theorem res_step (s : State) (e : Event) {r' : Res} (h : r' ∈ (step s e).res) : ∃ r ∈ s.res, r.id = r'.id ∧
    (r'.lastJob = r.lastJob ∨ ∃ m, (m, r'.id) ∈ (step s e).assigned ∧ (step s e).phase m = .over r'.lastJob) := by
  cases e with
  | launch k =>
    have : r' ∈ s.res := by
      have h : r' ∈ (launch s k).res := h
      unfold launch at h
      split at h <;> exact h
    exact ⟨r', this, rfl, .inl rfl⟩
  | fail k =>
    have : r' ∈ s.res := by
      unfold step at h
      dsimp only at h
      split at h <;> exact h
    exact ⟨r', this, rfl, .inl rfl⟩
  | cut k =>
    have : r' ∈ s.res := by
      unfold step at h
      dsimp only at h
      split at h <;> exact h
    exact ⟨r', this, rfl, .inl rfl⟩
  | finish k =>
    have h' : r' ∈ (finish s k).res := h
    show ∃ r ∈ s.res, r.id = r'.id ∧ (r'.lastJob = r.lastJob ∨ ∃ m, (m, r'.id) ∈ (finish s k).assigned ∧ (finish s k).phase m = .over r'.lastJob)
    unfold finish at h' ⊢
    split at h'
    · rename_i hl
      rw [if_pos hl]
      obtain ⟨r, hr, rfl⟩ := List.mem_map.1 h'
      refine ⟨r, hr, (lastDate_id _ _ _ _).symm, ?_⟩
      unfold lastDate
      split
      · rename_i hc
        exact .inr ⟨k, by simpa using hc, set_same _ _ _⟩
      · exact .inl rfl
    · exact ⟨r', h', rfl, .inl rfl⟩
  | change id st up =>
    obtain ⟨r, hr, rfl⟩ := List.mem_map.1 h
    refine ⟨r, hr, ?_, .inl ?_⟩ <;> split <;> rfl
  | tick _ => exact ⟨r', h, rfl, .inl rfl⟩
  | beginRound _ _ => exact ⟨r', h, rfl, .inl rfl⟩
  | wake _ => exact ⟨r', h, rfl, .inl rfl⟩

theorem dated_step {s0 s : State} (h : Dated s0 s) (e : Event) : Dated s0 (step s e) := by
  intro r' hr'
  obtain ⟨r, hr, hid, hl | hl⟩ := res_step s e hr'
  · rcases h r hr with ⟨r0, h0, h1, h2⟩ | ⟨m, h1, h2⟩
    · exact .inl ⟨r0, h0, by rw [h1, hid], by rw [hl, h2]⟩
    · refine .inr ⟨m, ?_, ?_⟩
      · show (m, r'.id) ∈ _
        rw [← hid]
        exact on_mono e h1
      · rw [hl]; exact over_mono e h2
  · exact .inr hl

theorem dated_run {s0 : State} : ∀ (h : List Event) {s : State}, Dated s0 s → Dated s0 (run s h)
  | [], _, hs => hs
  | e :: h, _, hs => dated_run h (dated_step hs e)

/-- **C116.** A node of the energy saving on which all the jobs ended more than the idle delay ago is halted, unless a job is predicted on it soon or it was woken up recently. -/
theorem idle_halted {s : State} (h : List Event) {c : Cfg} {sleep idle : Int} (hs : c.sleep = some sleep) (hi : c.idle = some idle)
    (hc : (c.sleepCmd || c.intSleep) = true) {n : String} (hex : ∃ r ∈ (run s h).res, r.net = n ∧ Managed r)
    (hold : ∀ r0 ∈ s.res, r0.lastJob < (run s h).now - idle)
    (hjobs : ∀ r ∈ (run s h).res, r.net = n → Managed r → ∀ m d, On (run s h) m r → (run s h).phase m = .over d → d < (run s h).now - idle)
    (hsoon : ∀ m d r, (m, d) ∈ (run s h).pred → (m, r.id) ∈ (run s h).gres → r ∈ (run s h).res → r.net = n → (run s h).now + sleep < d)
    (hpos : 0 ≤ sleep) (hwake : ∀ d, (n, d) ∈ (run s h).wakes → d < (run s h).now - idle) : n ∈ halted c (run s h) := by
  refine (halt_iff c _ _ sleep idle hs hi hc n).2 ⟨hex, ?_, ?_, ?_, hwake⟩
  · intro r hr hrn hm
    rcases dated_run h (s0 := s) (s := s) (fun r hr => .inl ⟨r, hr, rfl, rfl⟩) r hr with ⟨r0, h0, _, h2⟩ | ⟨m, h1, h2⟩
    · rw [h2]; exact hold r0 h0
    · exact hjobs r hr hrn hm m _ h1 h2
  · rintro d ⟨m, r, h1, h2, h3, h4⟩
    exact hsoon m d r h1 h2 h3 h4
  · intro m d r h1 h2 h3 h4 _
    have : (run s h).now + sleep < d := hsoon m d r h1 h2 h3 h4
    show (run s h).now < d
    omega

theorem wakes_mono {s : State} (e : Event) {x : String × Int} (h : x ∈ s.wakes) : x ∈ (step s e).wakes := by
  cases e with
  | launch k => show _ ∈ (launch s k).wakes; unfold launch; split <;> exact h
  | fail k => unfold step; dsimp only; split <;> exact h
  | finish k => show _ ∈ (finish s k).wakes; unfold finish; split <;> exact h
  | cut k => unfold step; dsimp only; split <;> exact h
  | wake k => exact List.mem_append_left _ h
  | _ => exact h

theorem wakes_run : ∀ (h : List Event) {s : State} {x : String × Int}, x ∈ s.wakes → x ∈ (run s h).wakes
  | [], _, _, hx => hx
  | e :: h, _, _, hx => wakes_run h (wakes_mono e hx)

/-- **C116.** Whatever the history before and after, a node that is halted was woken up more than the idle delay before the round. -/
theorem woken_kept {s : State} (h h' : List Event) {c : Cfg} {sleep idle : Int} (hs : c.sleep = some sleep) (hi : c.idle = some idle)
    (hc : (c.sleepCmd || c.intSleep) = true) {n : String} (hn : n ∈ halted c (run s (h ++ Event.wake n :: h'))) :
    (run s h).clock < (run s (h ++ Event.wake n :: h')).now - idle := by
  have hh := (halt_iff c _ _ sleep idle hs hi hc n).1 hn
  refine hh.2.2.2.2 _ ?_
  show (n, (run s h).clock) ∈ (run s (h ++ Event.wake n :: h')).wakes
  unfold run
  rw [List.foldl_append, List.foldl_cons]
  exact wakes_run h' (List.mem_append_right _ List.mem_cons_self)

/-- A job that is not over ends whatever its state, at the date of the clock, and its resources have this date. -/
theorem end_recorded {s : State} {m : Nat} (hp : s.phase m = .waiting ∨ s.phase m = .active ∨ s.phase m = .toError) :
    (step s (.finish m)).phase m = .over s.clock ∧ ∀ r ∈ (step s (.finish m)).res, (m, r.id) ∈ s.assigned → r.lastJob = s.clock := by
  have hl : live (s.phase m) = true := by rcases hp with h | h | h <;> rw [h] <;> decide
  show (finish s m).phase m = _ ∧ ∀ r ∈ (finish s m).res, _
  unfold finish
  rw [if_pos hl]
  refine ⟨set_same _ _ _, fun r hr ha => ?_⟩
  obtain ⟨r0, _, rfl⟩ := List.mem_map.1 hr
  rw [lastDate_id] at ha
  unfold lastDate
  rw [if_pos (by simpa using ha)]

/-! ## Examples and what does not hold -/

def s0 : State := ⟨1000, 1000, [⟨1, "a", "Alive", "default", 5000, 0⟩, ⟨2, "b", "Alive", "default", 5000, 0⟩], fun _ => .waiting, fun _ => 0, [], [], [], [], [], []⟩
def c0 : Cfg := ⟨false, true, true, some 50, some 100, 60⟩

/-- The job 7 is launched on the node `a` and runs for 500 seconds. -/
def started : List Event := [.beginRound [(7, 1000)] [(7, 1)], .launch 7, .tick 500]

theorem initial_example : Initial s0 := ⟨fun _ => rfl, rfl, rfl, rfl, rfl, Int.le_refl _⟩

/-- The node of the running job is not halted; nor is it less than 100 seconds after its end; then it is. -/
theorem history_example : halted c0 (run s0 (started ++ [.beginRound [] []])) = ["b"] ∧
    halted c0 (run s0 (started ++ [.finish 7, .tick 100, .beginRound [] []])) = ["b"] ∧
    halted c0 (run s0 (started ++ [.finish 7, .tick 101, .beginRound [] []])) = ["a", "b"] ∧
    (run s0 (started ++ [.finish 7, .tick 101, .beginRound [] []])).phase 7 = .over 1500 := by decide

/-- C116 (violated). When the server stops between the two commits of the end of a job, its node is halted at once. -/
theorem cut_violated : "a" ∈ halted c0 (run s0 (started ++ [.cut 7, .beginRound [] []])) ∧
    (run s0 (started ++ [.cut 7, .beginRound [] []])).phase 7 = .lost (run s0 (started ++ [.cut 7, .beginRound [] []])).now := by decide

/-- C116 (violated). A node suspected when the round began and alive again at its end is halted while a job is running on it (and the job is written on the first node of the platform,
see C97). -/
theorem running_violated : halted c0 (run s0 (started ++ [.change 1 "Suspected" 5000, .beginRound [] [(7, 2)], .change 1 "Alive" 5000])) = ["a"] ∧
    (run s0 (started ++ [.change 1 "Suspected" 5000, .beginRound [] [(7, 2)], .change 1 "Alive" 5000])).phase 7 = .active := by decide

end Oar.EnergyHist
