/-!
# C37 (first part): the nodes chosen for energy saving

`nodes_energy_saving` (`oar/kao/meta_sched.py`) and its queries (`oar/lib/node.py`).
-/

namespace Oar.Energy

/-- A row of `resources`: `upto` is `available_upto`, `lastJob` is `last_job_date`. -/
structure Res where
  id : Nat
  net : String
  state : String
  type : String
  upto : Int
  lastJob : Int
  deriving DecidableEq

/-- The tables: `pred` is `gantt_jobs_predictions` (moldable, start), `gres` is `gantt_jobs_resources` (moldable, resource), `wakes` are the
events WAKEUP_NODE with a host, `waiting` the moldables of the waiting jobs with their walltimes. -/
structure Tables where
  res : List Res
  pred : List (Nat × Int)
  gres : List (Nat × Nat)
  wakes : List (String × Int)
  waiting : List (Nat × Int)
  deriving DecidableEq

/-- The variables of the configuration: `sleepCmd` (SCHEDULER_NODE_MANAGER_SLEEP_CMD is defined), `intSleep` and `intWake` (the internal
manager is used and has the command), `sleep` and `idle` (SCHEDULER_NODE_MANAGER_SLEEP_TIME and IDLE_TIME, if defined), `wake`
(SCHEDULER_NODE_MANAGER_WAKEUP_TIME). -/
structure Cfg where
  sleepCmd : Bool
  intSleep : Bool
  intWake : Bool
  sleep : Option Int
  idle : Option Int
  wake : Int

/-- Without repetition, at the first place. -/
def dedup : List String → List String
  | [] => []
  | a :: l => a :: (dedup l).filter (· ≠ a)

/-- The filters of the second query of `search_idle_nodes` (oar/lib/node.py:77-85). -/
def usable (r : Res) : Bool := r.state = "Alive" && r.net ≠ "" && r.type = "default" && decide (r.upto < 2147483647) && decide (0 < r.upto)

/-- `func.max` of dates. -/
def maxD : List Int → Option Int
  | [] => none
  | a :: l => some (l.foldl max a)

/-- `func.min` of dates. -/
def minD : List Int → Option Int
  | [] => none
  | a :: l => some (l.foldl min a)

/-- The busy nodes (oar/lib/node.py:60-73). -/
def busy (t : Tables) (date : Int) : List String :=
  (t.res.filter (fun r => r.net ≠ "" && r.type = "default" && t.pred.any (fun p => decide (p.2 ≤ date) && t.gres.contains (p.1, r.id)))).map (·.net)

/-- Models `search_idle_nodes` (oar/lib/node.py:59-95): the nodes with the date of their last job. -/
def idleNodes (t : Tables) (date : Int) : List (String × Int) :=
  ((dedup ((t.res.filter usable).map (·.net))).filterMap (fun n =>
    (maxD ((t.res.filter (fun r => usable r && r.net = n)).map (·.lastJob))).map (fun d => (n, d)))).filter (fun x => !(busy t date).contains x.1)

/-- Models `get_next_job_date_on_node` (oar/lib/node.py:123-131). -/
def nextJob (t : Tables) (n : String) : Option Int :=
  minD ((t.pred.filter (fun p => t.res.any (fun r => r.net = n && t.gres.contains (p.1, r.id)))).map (·.2))

/-- Models `get_last_wake_up_date_of_node` (oar/lib/node.py:134-144). -/
def lastWake (t : Tables) (n : String) : Option Int := maxD ((t.wakes.filter (fun e => e.1 = n)).map (·.2))

/-- The nodes to halt (oar/kao/meta_sched.py:798-828). -/
def toHalt (c : Cfg) (t : Tables) (now : Int) : List String :=
  match c.sleep, c.idle with
  | some s, some i =>
    if c.sleepCmd || c.intSleep then
      ((idleNodes t now).filter (fun x => decide (x.2 < now - i) && (nextJob t x.1).all (fun d => decide (now < d - s)) &&
        (lastWake t x.1).all (fun d => decide (d < now - i)))).map (·.1)
    else []
  | _, _ => []

/-- Models `get_gantt_hostname_to_wake_up` (oar/lib/node.py:99-120). -/
def hostsToWake (t : Tables) (date wake : Int) : List String :=
  dedup ((t.res.filter (fun r => r.state = "Absent" && r.net ≠ "" && r.type = "default" && t.pred.any (fun p => t.gres.contains (p.1, r.id) &&
    decide (p.2 ≤ date + wake) && t.waiting.any (fun m => decide (m.1 = p.1) && decide (p.2 + m.2 ≤ r.upto))))).map (·.net))

/-- The nodes to wake up (oar/kao/meta_sched.py:830-840). -/
def toWake (c : Cfg) (t : Tables) (now : Int) : List String := if c.sleepCmd || c.intWake then hostsToWake t now c.wake else []

/-! ## Specification -/

/-- A resource of the energy saving: alive, of the default type, with a limited availability. -/
def Managed (r : Res) : Prop := r.state = "Alive" ∧ r.net ≠ "" ∧ r.type = "default" ∧ 0 < r.upto ∧ r.upto < 2147483647

/-- A job is predicted (or running) on the node from the date `s`. -/
def JobAt (t : Tables) (n : String) (s : Int) : Prop := ∃ m r, (m, s) ∈ t.pred ∧ (m, r.id) ∈ t.gres ∧ r ∈ t.res ∧ r.net = n

/-- What allows to halt a node: it has a resource of the energy saving and these are idle since the idle delay; no job is predicted on the node
before the end of the sleep delay, nor has begun on its resources of the default type; it was not woken up in the idle delay. -/
def MayHalt (t : Tables) (idle sleep now : Int) (n : String) : Prop :=
  (∃ r ∈ t.res, r.net = n ∧ Managed r) ∧ (∀ r ∈ t.res, r.net = n → Managed r → r.lastJob < now - idle) ∧
    (∀ s, JobAt t n s → now + sleep < s) ∧
    (∀ m s r, (m, s) ∈ t.pred → (m, r.id) ∈ t.gres → r ∈ t.res → r.net = n → r.type = "default" → now < s) ∧
    ∀ d, (n, d) ∈ t.wakes → d < now - idle

/-- A waiting job is predicted before the end of the wake-up delay on an absent resource of the node available until its end. -/
def Needed (t : Tables) (now wake : Int) (n : String) : Prop :=
  ∃ r m s w, r ∈ t.res ∧ r.net = n ∧ r.state = "Absent" ∧ r.type = "default" ∧ (m, s) ∈ t.pred ∧ (m, r.id) ∈ t.gres ∧ (m, w) ∈ t.waiting ∧
    s ≤ now + wake ∧ s + w ≤ r.upto

/-! ## Proofs -/

theorem mem_dedup (l : List String) (a : String) : a ∈ dedup l ↔ a ∈ l := by
  induction l with
  | nil => rfl
  | cons b l ih =>
    unfold dedup
    rw [List.mem_cons, List.mem_cons, List.mem_filter, ih]
    by_cases h : a = b
    · simp [h]
    · simp [h]

theorem dedup_nodup (l : List String) : (dedup l).Nodup := by
  induction l with
  | nil => exact List.nodup_nil
  | cons b l ih =>
    unfold dedup
    rw [List.nodup_cons]
    exact ⟨by simp, ih.filter _⟩

theorem usable_iff (r : Res) : usable r = true ↔ Managed r := by
  unfold usable Managed
  simp only [Bool.and_eq_true, decide_eq_true_eq]
  constructor
  · rintro ⟨⟨⟨⟨a, b⟩, c⟩, d⟩, e⟩
    exact ⟨a, b, c, e, d⟩
  · rintro ⟨a, b, c, e, d⟩
    exact ⟨⟨⟨⟨a, b⟩, c⟩, d⟩, e⟩

theorem foldl_max_lt (l : List Int) (a b : Int) : l.foldl max a < b ↔ a < b ∧ ∀ x ∈ l, x < b := by
  induction l generalizing a with
  | nil => simp
  | cons c l ih =>
    rw [List.foldl_cons, ih]
    constructor
    · rintro ⟨h1, h2⟩
      refine ⟨by omega, fun x hx => ?_⟩
      rcases List.mem_cons.1 hx with rfl | hx
      · omega
      · exact h2 x hx
    · rintro ⟨h1, h2⟩
      have := h2 c (by simp)
      exact ⟨by omega, fun x hx => h2 x (List.mem_cons_of_mem _ hx)⟩

theorem lt_foldl_min (l : List Int) (a b : Int) : b < l.foldl min a ↔ b < a ∧ ∀ x ∈ l, b < x := by
  induction l generalizing a with
  | nil => simp
  | cons c l ih =>
    rw [List.foldl_cons, ih]
    constructor
    · rintro ⟨h1, h2⟩
      refine ⟨by omega, fun x hx => ?_⟩
      rcases List.mem_cons.1 hx with rfl | hx
      · omega
      · exact h2 x hx
    · rintro ⟨h1, h2⟩
      have := h2 c (by simp)
      exact ⟨by omega, fun x hx => h2 x (List.mem_cons_of_mem _ hx)⟩

theorem maxD_all (l : List Int) (b : Int) : (maxD l).all (fun d => decide (d < b)) = true ↔ ∀ x ∈ l, x < b := by
  cases l with
  | nil => simp [maxD]
  | cons a l =>
    simp only [maxD, Option.all_some, decide_eq_true_eq, foldl_max_lt, List.mem_cons]
    constructor
    · rintro ⟨h1, h2⟩ x (rfl | hx)
      · exact h1
      · exact h2 x hx
    · intro h
      exact ⟨h a (Or.inl rfl), fun x hx => h x (Or.inr hx)⟩

theorem minD_all (l : List Int) (b s : Int) : (minD l).all (fun d => decide (b < d - s)) = true ↔ ∀ x ∈ l, b + s < x := by
  have key : ∀ d : Int, b < d - s ↔ b + s < d := by intro d; omega
  cases l with
  | nil => simp [minD]
  | cons a l =>
    simp only [minD, Option.all_some, decide_eq_true_eq, key, lt_foldl_min, List.mem_cons]
    constructor
    · rintro ⟨h1, h2⟩ x (rfl | hx)
      · exact h1
      · exact h2 x hx
    · intro h
      exact ⟨h a (Or.inl rfl), fun x hx => h x (Or.inr hx)⟩

theorem busy_iff (t : Tables) (date : Int) (n : String) (hn : n ≠ "") : (busy t date).contains n = false ↔
    ∀ m s r, (m, s) ∈ t.pred → (m, r.id) ∈ t.gres → r ∈ t.res → r.net = n → r.type = "default" → date < s := by
  have hc : (busy t date).contains n = true ↔ n ∈ busy t date := by simp
  rw [← Bool.not_eq_true, hc]
  unfold busy
  simp only [List.mem_map, List.mem_filter, Bool.and_eq_true, decide_eq_true_eq, List.any_eq_true, List.contains_iff_mem]
  constructor
  · intro h m s r h1 h2 h3 h4 h5
    apply Classical.byContradiction
    intro hlt
    exact h ⟨r, ⟨h3, ⟨by rw [h4]; exact hn, h5⟩, (m, s), h1, by dsimp only; omega, h2⟩, h4⟩
  · rintro h ⟨r, ⟨h3, ⟨_, h5⟩, ⟨m, s⟩, h1, h6, h2⟩, h4⟩
    have := h m s r h1 h2 h3 h4 h5
    dsimp only at h6
    omega

theorem mem_idleNodes (t : Tables) (date : Int) (n : String) (d : Int) : (n, d) ∈ idleNodes t date ↔
    maxD ((t.res.filter (fun r => usable r && r.net = n)).map (·.lastJob)) = some d ∧ (busy t date).contains n = false := by
  unfold idleNodes
  rw [List.mem_filter, List.mem_filterMap]
  constructor
  · rintro ⟨⟨m, _, h⟩, hb⟩
    obtain ⟨x, hx, e⟩ := Option.map_eq_some_iff.1 h
    cases e
    exact ⟨hx, by simpa using hb⟩
  · rintro ⟨h, hb⟩
    refine ⟨⟨n, ?_, by rw [h]; rfl⟩, by rw [hb]; rfl⟩
    rw [mem_dedup]
    cases hl : t.res.filter (fun r => usable r && decide (r.net = n)) with
    | nil => rw [hl] at h; cases h
    | cons r l =>
      have hr : r ∈ t.res.filter (fun r => usable r && decide (r.net = n)) := by rw [hl]; simp
      rw [List.mem_filter, Bool.and_eq_true, decide_eq_true_eq] at hr
      exact List.mem_map.2 ⟨r, List.mem_filter.2 ⟨hr.1, hr.2.1⟩, hr.2.2⟩

/-- C37: the nodes to halt are exactly those of the energy saving which are idle since the idle delay, on which no job is predicted before the
end of the sleep delay, and which were not woken up in the idle delay. -/
theorem halt_iff (c : Cfg) (t : Tables) (now sleep idle : Int) (hs : c.sleep = some sleep) (hi : c.idle = some idle) (hc : (c.sleepCmd || c.intSleep) = true)
    (n : String) : n ∈ toHalt c t now ↔ MayHalt t idle sleep now n := by
  unfold toHalt
  rw [hs, hi]
  dsimp only
  rw [if_pos hc, List.mem_map]
  have hj : (∀ s, JobAt t n s → now + sleep < s) ↔ ∀ x ∈ (t.pred.filter (fun p => t.res.any (fun r => r.net = n && t.gres.contains (p.1, r.id)))).map (·.2), now + sleep < x := by
    constructor
    · intro h x hx
      obtain ⟨⟨m, s⟩, hp, rfl⟩ := List.mem_map.1 hx
      rw [List.mem_filter, List.any_eq_true] at hp
      obtain ⟨hp, r, hr, hb⟩ := hp
      simp only [Bool.and_eq_true, decide_eq_true_eq, List.contains_iff_mem] at hb
      exact h s ⟨m, r, hp, hb.2, hr, hb.1⟩
    · rintro h s ⟨m, r, hp, hg, hr, hn⟩
      refine h s (List.mem_map.2 ⟨(m, s), List.mem_filter.2 ⟨hp, List.any_eq_true.2 ⟨r, hr, ?_⟩⟩, rfl⟩)
      simp only [Bool.and_eq_true, decide_eq_true_eq, List.contains_iff_mem]
      exact ⟨hn, hg⟩
  have hw : (∀ d, (n, d) ∈ t.wakes → d < now - idle) ↔ ∀ x ∈ (t.wakes.filter (fun e => e.1 = n)).map (·.2), x < now - idle := by
    constructor
    · intro h x hx
      obtain ⟨⟨m, s⟩, hp, rfl⟩ := List.mem_map.1 hx
      rw [List.mem_filter, decide_eq_true_eq] at hp
      obtain ⟨hp, e⟩ := hp
      dsimp only at e
      subst e
      exact h s hp
    · intro h d hd
      exact h d (List.mem_map.2 ⟨(n, d), List.mem_filter.2 ⟨hd, by simp⟩, rfl⟩)
  have hl : ∀ d, maxD ((t.res.filter (fun r => usable r && r.net = n)).map (·.lastJob)) = some d →
      (d < now - idle ↔ ∀ r ∈ t.res, r.net = n → Managed r → r.lastJob < now - idle) := by
    intro d hd
    have h0 := maxD_all ((t.res.filter (fun r => usable r && r.net = n)).map (·.lastJob)) (now - idle)
    rw [hd] at h0
    simp only [Option.all_some, decide_eq_true_eq] at h0
    rw [h0]
    constructor
    · intro h r hr hn hm
      exact h _ (List.mem_map.2 ⟨r, List.mem_filter.2 ⟨hr, by rw [(usable_iff r).2 hm, hn]; simp⟩, rfl⟩)
    · intro h x hx
      obtain ⟨r, hr, rfl⟩ := List.mem_map.1 hx
      rw [List.mem_filter, Bool.and_eq_true, decide_eq_true_eq, usable_iff] at hr
      exact h r hr.1 hr.2.2 hr.2.1
  constructor
  · rintro ⟨⟨k, d⟩, h, e⟩
    dsimp only at e
    subst e
    rw [List.mem_filter, Bool.and_eq_true, Bool.and_eq_true, decide_eq_true_eq, mem_idleNodes] at h
    obtain ⟨⟨h1, h2⟩, ⟨h3, h4⟩, h5⟩ := h
    have hex : ∃ r ∈ t.res, r.net = k ∧ Managed r := by
      cases hl : t.res.filter (fun r => usable r && decide (r.net = k)) with
      | nil => rw [hl] at h1; cases h1
      | cons r l =>
        have hr : r ∈ t.res.filter (fun r => usable r && decide (r.net = k)) := by rw [hl]; simp
        rw [List.mem_filter, Bool.and_eq_true, decide_eq_true_eq, usable_iff] at hr
        exact ⟨r, hr.1, hr.2.2, hr.2.1⟩
    have hk : k ≠ "" := by
      obtain ⟨r, _, e, hm⟩ := hex
      rw [← e]
      exact hm.2.1
    exact ⟨hex, (hl d h1).1 h3, hj.2 ((minD_all _ _ _).1 h4), (busy_iff t now k hk).1 h2, hw.2 ((maxD_all _ _).1 h5)⟩
  · rintro ⟨⟨r, hr, e, hm⟩, h3, h4, h2, h5⟩
    have hn : n ≠ "" := by rw [← e]; exact hm.2.1
    have hmem : r ∈ t.res.filter (fun r => usable r && decide (r.net = n)) := List.mem_filter.2 ⟨hr, by rw [(usable_iff r).2 hm, e]; simp⟩
    cases hd : maxD ((t.res.filter (fun r => usable r && r.net = n)).map (·.lastJob)) with
    | none =>
      cases hf : t.res.filter (fun r => usable r && decide (r.net = n)) with
      | nil => rw [hf] at hmem; cases hmem
      | cons a l => rw [hf] at hd; cases hd
    | some d =>
      refine ⟨(n, d), ?_, rfl⟩
      rw [List.mem_filter, Bool.and_eq_true, Bool.and_eq_true, decide_eq_true_eq, mem_idleNodes]
      exact ⟨⟨hd, (busy_iff t now n hn).2 h2⟩, ⟨(hl d hd).2 h3, (minD_all _ _ _).2 (hj.1 h4)⟩, (maxD_all _ _).2 (hw.1 h5)⟩

/-- C37: without the variables of the configuration no node is halted. -/
theorem halt_disabled (c : Cfg) (t : Tables) (now : Int) (h : c.sleep = none ∨ c.idle = none ∨ (c.sleepCmd || c.intSleep) = false) : toHalt c t now = [] := by
  unfold toHalt
  split
  · rename_i s i hs hi
    rcases h with h | h | h
    · rw [h] at hs; cases hs
    · rw [h] at hi; cases hi
    · rw [if_neg (by rw [h]; decide)]
  · rfl

/-- C37: the nodes to wake up are exactly those where a waiting job is predicted before the end of the wake-up delay on an absent resource. -/
theorem wake_iff (c : Cfg) (t : Tables) (now : Int) (n : String) : n ∈ toWake c t now ↔ (c.sleepCmd || c.intWake) = true ∧ n ≠ "" ∧ Needed t now c.wake n := by
  unfold toWake
  by_cases hc : (c.sleepCmd || c.intWake) = true
  · rw [if_pos hc]
    unfold hostsToWake
    rw [mem_dedup, List.mem_map]
    constructor
    · rintro ⟨r, hr, rfl⟩
      simp only [List.mem_filter, Bool.and_eq_true, decide_eq_true_eq, List.any_eq_true, List.contains_iff_mem] at hr
      obtain ⟨hr, ⟨⟨hs, hn⟩, ht⟩, ⟨m, s⟩, hp, ⟨hg, hd⟩, ⟨m', w⟩, hw, e, hu⟩ := hr
      dsimp only at hd hu hg e
      subst e
      exact ⟨hc, hn, r, m', s, w, hr, rfl, hs, ht, hp, hg, hw, hd, hu⟩
    · rintro ⟨_, hn, r, m, s, w, hr, rfl, hs, ht, hp, hg, hw, hd, hu⟩
      refine ⟨r, ?_, rfl⟩
      simp only [List.mem_filter, Bool.and_eq_true, decide_eq_true_eq, List.any_eq_true, List.contains_iff_mem]
      exact ⟨hr, ⟨⟨hs, hn⟩, ht⟩, (m, s), hp, ⟨hg, hd⟩, (m, w), hw, rfl, hu⟩
  · rw [if_neg hc]
    constructor
    · intro h; cases h
    · exact fun h => absurd h.1 hc

/-- C37: when the wake-up delay is at most the sleep delay no node is both halted and woken up; and each node is asked at most once. -/
theorem halt_wake_disjoint (c : Cfg) (t : Tables) (now sleep idle : Int) (hs : c.sleep = some sleep) (hi : c.idle = some idle) (hc : (c.sleepCmd || c.intSleep) = true)
    (hle : c.wake ≤ sleep) (n : String) (h : n ∈ toHalt c t now) : n ∉ toWake c t now := by
  intro hw
  obtain ⟨_, _, r, m, s, w, hr, hn, _, _, hp, hg, _, hd, _⟩ := (wake_iff c t now n).1 hw
  have := ((halt_iff c t now sleep idle hs hi hc n).1 h).2.2.1 s ⟨m, r, hp, hg, hr, hn⟩
  omega

theorem filterMap_keys (l : List String) (g : String → Option Int) (p : String × Int → Bool) (h : l.Nodup) :
    (((l.filterMap (fun n => (g n).map (fun d => (n, d)))).filter p).map (·.1)).Nodup := by
  have hsub : (((l.filterMap (fun n => (g n).map (fun d => (n, d)))).filter p).map (·.1)).Sublist l := by
    refine List.Sublist.trans (List.Sublist.map _ List.filter_sublist) ?_
    clear h
    induction l with
    | nil => exact List.Sublist.slnil
    | cons a l ih =>
      cases hg : g a with
      | none =>
        rw [List.filterMap_cons_none (by rw [hg]; rfl)]
        exact ih.cons _
      | some d =>
        rw [List.filterMap_cons_some (b := (a, d)) (by rw [hg]; rfl), List.map_cons]
        exact ih.cons_cons _
  exact hsub.nodup h

theorem asked_once (c : Cfg) (t : Tables) (now : Int) : (toHalt c t now).Nodup ∧ (toWake c t now).Nodup := by
  constructor
  · unfold toHalt
    split
    · split
      · unfold idleNodes
        rw [List.filter_filter]
        exact filterMap_keys _ _ _ (dedup_nodup _)
      · exact List.nodup_nil
    · exact List.nodup_nil
  · unfold toWake
    split
    · exact dedup_nodup _
    · exact List.nodup_nil

/-- Nodes: `a` idle, `b` with a job soon, `c` recently used, `d` absent and needed, `e` recently woken up. -/
def exT : Tables :=
  ⟨[⟨1, "a", "Alive", "default", 5000, 100⟩, ⟨2, "a", "Alive", "default", 5000, 200⟩, ⟨3, "b", "Alive", "default", 5000, 100⟩, ⟨4, "c", "Alive", "default", 5000, 950⟩,
    ⟨5, "d", "Absent", "default", 5000, 100⟩, ⟨6, "e", "Alive", "default", 5000, 0⟩, ⟨7, "a", "Suspected", "default", 5000, 990⟩],
   [(1, 1100), (2, 1200), (3, 3000)], [(1, 3), (2, 5), (3, 1)], [("e", 960), ("a", 300)], [(1, 60), (2, 60), (3, 60)]⟩

def exC : Cfg := ⟨false, true, true, some 600, some 500, 600⟩

/-- C37, not vacuous. -/
example : toHalt exC exT 1000 = ["a"] ∧ toWake exC exT 1000 = ["d"] := by decide

/-- C37 (limit of the code): only the resources which are alive count for the last job: the node `a` above is halted although a job ended on its
suspected resource 7 ten seconds ago. -/
theorem halt_recent_violated : (∃ r ∈ exT.res, r.net = "a" ∧ r.lastJob = 990) ∧ "a" ∈ toHalt exC exT 1000 := by decide

end Oar.Energy
