import Verif.GretaProps

/-!
# C37 (third part): the cycles of the energy saving module
-/

namespace Oar.Greta

open Oar.Tools

/-- The commands still in progress once the booting nodes which are up or too late are left out. -/
abbrev still (v : View) (s : St) : List (String × Cmd × Int) := s.running.filter (fun e => !bootEnds v e)

theorem still_sub (v : View) (s : St) (n : String) (h : n ∈ keys (still v s)) : n ∈ keys s.running := by
  obtain ⟨e, he, rfl⟩ := List.mem_map.1 h
  exact List.mem_map.2 ⟨e, (List.mem_filter.1 he).1, rfl⟩

theorem still_nodup (v : View) (s : St) (h : (keys s.running).Nodup) : (keys (still v s)).Nodup :=
  List.Sublist.nodup (List.Sublist.map _ List.filter_sublist) h

theorem mem_erases (d : List String) : ∀ (l : List String) (n : String), n ∈ d.foldl (fun l n => l.erase n) l → n ∈ l := by
  induction d with
  | nil => intro l n h; exact h
  | cons x d ih => intro l n h; exact List.mem_of_mem_erase (ih _ n h)

theorem erases_mem (d : List String) : ∀ (l : List String) (n : String), n ∈ l → n ∉ d → n ∈ d.foldl (fun l n => l.erase n) l := by
  induction d with
  | nil => intro l n h _; exact h
  | cons x d ih =>
    intro l n h hd
    rw [List.mem_cons, not_or] at hd
    exact ih _ n ((List.mem_erase_of_ne hd.1).2 h) hd.2

/-- The class `c` lacks idle nodes, and `n` is one of its nodes which are down. -/
def Lacks (v : View) (c : Nat × List (String × String × String)) (n : String) : Prop :=
  (idleOf v c.2).length < c.1 ∧ n ∈ downOf c.2

theorem process_spec (v : View) (s : St) (msg : Option (Cmd × List String)) (hrem : (keys s.remind).Nodup) :
    (keys (processOf v s msg).1).Nodup ∧ (keys (processOf v s msg).2).Nodup ∧
    (∀ e ∈ (processOf v s msg).1, e.1 ∉ keys (still v s)) ∧
    (∀ e ∈ (processOf v s msg).1, (e.2 = .wakeup ∧ e.1 ∈ v.can ∧ ∃ c ∈ v.classes, Lacks v c e.1) ∨ e ∈ s.remind ∨ ∃ ns, msg = some (e.2, ns) ∧ e.1 ∈ ns) ∧
    (∀ c ∈ v.classes, (c.1 ≤ (idleOf v c.2).length + (((downOf c.2).filter (fun n => v.can.contains n)).filter (fun n =>
        decide (n ∈ keys (processOf v s msg).1 ∨ n ∈ keys s.running))).length) ∨
      ∀ n ∈ downOf c.2, n ∈ v.can → n ∈ keys (processOf v s msg).1 ∨ n ∈ keys s.running) ∧
    (∀ n, n ∈ keys s.remind → n ∈ keys (processOf v s msg).2) ∧
    (∀ e ∈ (processOf v s msg).2, e ∈ s.remind ∨ ∃ ns, msg = some (e.2, ns) ∧ e.1 ∈ ns) ∧
    (∀ e ∈ s.remind, e.1 ∉ keys (still v s) → e.1 ∈ keys (processOf v s msg).1 ∧ (msg = none → e ∈ (processOf v s msg).1)) ∧
    (∀ cmd ns, msg = some (cmd, ns) → (∀ e ∈ s.remind, e.2 = cmd → e ∈ (processOf v s msg).2) ∧ ∀ n ∈ ns, n ∈ late v s.running ∨ (n, cmd) ∈ (processOf v s msg).1 ∨
      (∃ t, (n, cmd, t) ∈ still v s) ∨ (n, cmd) ∈ (processOf v s msg).2) := by
  obtain ⟨a, b, d, e⟩ := keepFold_spec v (keys s.running) v.classes [] List.nodup_nil
  have ka : keepAll v (keys s.running) [] = v.classes.foldl (fun p c => keepWake (keys s.running) v.can (downOf c.2) ((idleOf v c.2).length - c.1) p) [] := rfl
  rw [← ka] at a b d e
  generalize hK : keepAll v (keys s.running) [] = K at *
  obtain ⟨a1, b1, d1, e1⟩ := remindAll_spec (keys (still v s)) s.remind K a
  have hR : remindAll (keys (still v s)) s.remind K = remindAll (keys (still v s)) s.remind (keepAll v (keys s.running) []) := by rw [hK]
  have origin1 : ∀ x ∈ remindAll (keys (still v s)) s.remind K, x.1 ∉ keys (still v s) ∧
      ((x.2 = .wakeup ∧ x.1 ∈ v.can ∧ ∃ c ∈ v.classes, Lacks v c x.1) ∨ x ∈ s.remind) := by
    intro x hx
    rcases b1 x hx with hx | ⟨h1, h2⟩
    · rcases b x hx with hx | ⟨h1, h2, h3, c, hc, h4, h5⟩
      · cases hx
      · exact ⟨fun hc => h3 (still_sub v s _ hc), Or.inl ⟨h1, h2, c, hc, h5, h4⟩⟩
    · exact ⟨h2, Or.inr h1⟩
  cases msg with
  | none =>
    have hp : processOf v s none = (remindAll (keys (still v s)) s.remind K, s.remind) := by
      unfold processOf
      rw [← hK]
    rw [hp]
    refine ⟨a1, hrem, fun x hx => (origin1 x hx).1, fun x hx => ?_, fun c hc => ?_, fun n hn => hn, fun x hx => Or.inl hx, fun x hx hn => ?_, fun cmd ns h => by cases h⟩
    · rcases (origin1 x hx).2 with h | h
      · exact Or.inl h
      · exact Or.inr (Or.inl h)
    · rcases e c hc with h | h
      · left
        refine Nat.le_trans h (Nat.add_le_add_left (filter_le _ _ _ (fun n hn => ?_)) _)
        simp only [decide_eq_true_eq] at hn ⊢
        exact hn.imp (d1 n) id
      · exact Or.inr (fun n h1 h2 => (h n h1 h2).imp (d1 n) id)
    · have := e1 hrem x hx hn
      exact ⟨List.mem_map.2 ⟨x, this, rfl⟩, fun _ => this⟩
  | some m =>
    have hp : processOf v s (some m) = receive (still v s) m.1 ((late v s.running).foldl (fun l n => l.erase n) m.2) (remindAll (keys (still v s)) s.remind K) s.remind := by
      unfold processOf
      rw [← hK]
    rw [hp]
    obtain ⟨a2, a3, b2, c2, c3, d2, k1, k2, e2⟩ := receive_spec (still v s) m.1 ((late v s.running).foldl (fun l n => l.erase n) m.2) (remindAll (keys (still v s)) s.remind K) s.remind a1 hrem
    refine ⟨a2, a3, fun x hx => ?_, fun x hx => ?_, fun c hc => ?_, c3, fun x hx => ?_, fun x hx hn => ?_, fun cmd ns h => ?_⟩
    · rcases b2 x hx with ⟨h1, _⟩ | ⟨_, _, h3⟩
      · exact (origin1 x h1).1
      · exact h3
    · rcases b2 x hx with ⟨h1, _⟩ | ⟨h1, h2, _⟩
      · rcases (origin1 x h1).2 with h | h
        · exact Or.inl h
        · exact Or.inr (Or.inl h)
      · exact Or.inr (Or.inr ⟨m.2, by rw [h1], mem_erases _ _ _ h2⟩)
    · rcases e c hc with h | h
      · left
        refine Nat.le_trans h (Nat.add_le_add_left (filter_le _ _ _ (fun n hn => ?_)) _)
        simp only [decide_eq_true_eq] at hn ⊢
        exact hn.imp (fun h => c2 n (d1 n h)) id
      · exact Or.inr (fun n h1 h2 => (h n h1 h2).imp (fun h => c2 n (d1 n h)) id)
    · rcases d2 x hx with h | ⟨h1, h2⟩
      · exact Or.inl h
      · exact Or.inr ⟨m.2, by rw [h1], mem_erases _ _ _ h2⟩
    · have := e1 hrem x hx hn
      exact ⟨c2 _ (List.mem_map.2 ⟨x, this, rfl⟩), fun h => by cases h⟩
    · cases h
      refine ⟨k2, fun n hn => ?_⟩
      by_cases hl : n ∈ late v s.running
      · exact Or.inl hl
      · rcases e2 n (erases_mem _ _ _ hn hl) with h | h | h
        · exact Or.inr (Or.inl h.2)
        · exact Or.inr (Or.inr (Or.inl h))
        · exact Or.inr (Or.inr (Or.inr h))

/-- What a cycle does to the state. -/
theorem cycle_out (ts : List (Nat × Nat)) (v : View) (s : St) (msg : Option (Cmd × List String)) (hrem : (keys s.remind).Nodup)
    (x : St × List (Cmd × String) × List String) (h : cycle ts v s msg = some x) :
    ∃ t, getTimeout ts ((still v s).length + (processOf v s msg).1.length) = some t ∧
      x.1.running = still v s ++ (launch (v.now + t) (processOf v s msg).1 (classesOf v)).2 ∧
      x.1.remind = (processOf v s msg).2 ∧
      x.1.exec = s.exec ++ x.2.1.map (fun c => (c.2, c.1, v.now)) ∧
      x.2.1 = (launch (v.now + t) (processOf v s msg).1 (classesOf v)).1 ∧ x.2.2 = late v s.running ∧
      (keys (launch (v.now + t) (processOf v s msg).1 (classesOf v)).2).Nodup ∧
      (∀ e ∈ (launch (v.now + t) (processOf v s msg).1 (classesOf v)).2, e.1 ∉ keys (still v s)) := by
  unfold cycle at h
  dsimp only at h
  obtain ⟨t, ht, hx⟩ := Option.map_eq_some_iff.1 h
  obtain ⟨a, b, c, _⟩ := process_spec v s msg hrem
  obtain ⟨l1, l2, _⟩ := launch_spec (v.now + t) (processOf v s msg).1 (classesOf v)
  have hk : (keys (launch (v.now + t) (processOf v s msg).1 (classesOf v)).2).Sublist (keys (processOf v s msg).1) := by
    have := l2.map (fun x : String × Cmd => x.1)
    rw [List.map_map] at this
    exact this
  have hd : ∀ e ∈ (launch (v.now + t) (processOf v s msg).1 (classesOf v)).2, e.1 ∉ keys (still v s) := by
    intro e he
    obtain ⟨y, hy, hye⟩ := List.mem_map.1 (hk.subset (List.mem_map.2 ⟨e, he, rfl⟩))
    exact hye ▸ c y hy
  have hn := hk.nodup a
  refine ⟨t, ht, ?_, ?_, ?_, ?_, ?_, hn, hd⟩
  · rw [← hx]
    exact puts_new _ _ hn hd
  all_goals rw [← hx]

theorem boot_iff (v : View) (n : String) (c : Cmd) (d : Int) : (!bootEnds v (n, c, d)) = true ↔ ¬ (c = .wakeup ∧ (n ∈ v.alive ∨ d < v.now)) := by
  rw [Bool.not_eq_true', ← Bool.not_eq_true]
  simp [bootEnds]

/-- A node launched is one of the list to process. -/
theorem launched_mem (limit : Int) (p : List (String × Cmd)) (cls : List Cl) (c : Cmd) (n : String) (h : (c, n) ∈ (launch limit p cls).1) :
    (n, c) ∈ p ∧ ∃ d, (n, c, d) ∈ (launch limit p cls).2 := by
  obtain ⟨l1, l2, _⟩ := launch_spec limit p cls
  have h1 : (n, c) ∈ (launch limit p cls).1.map (fun x => (x.2, x.1)) := List.mem_map.2 ⟨(c, n), h, rfl⟩
  rw [l1] at h1
  refine ⟨l2.subset h1, ?_⟩
  obtain ⟨⟨y1, y2, y3⟩, hy, e⟩ := List.mem_map.1 h1
  cases e
  exact ⟨y3, hy⟩

/-! ## Theorems -/

/-- Specification: `n` is an idle node of the resources given by `rows`. -/
def Idle (v : View) (rows : List (String × String × String)) (n : String) : Prop :=
  (∃ st nx, (n, st, nx) ∈ rows ∧ (st = "Alive" ∨ nx = "Alive")) ∧ n ∉ v.occupied

theorem mem_alive (rows : List (String × String × String)) (n : String) :
    n ∈ aliveOf rows ↔ ∃ st nx, (n, st, nx) ∈ rows ∧ (st = "Alive" ∨ nx = "Alive") := by
  unfold aliveOf
  rw [List.mem_map]
  constructor
  · rintro ⟨⟨a, b, c⟩, h, rfl⟩
    rw [List.mem_filter] at h
    exact ⟨b, c, h.1, by simpa using h.2⟩
  · rintro ⟨st, nx, h, h'⟩
    exact ⟨(n, st, nx), List.mem_filter.2 ⟨h, by simpa using h'⟩, rfl⟩

theorem mem_idle (v : View) (rows : List (String × String × String)) (n : String) : n ∈ idleOf v rows ↔ Idle v rows n := by
  unfold idleOf Idle
  rw [List.mem_filter, mem_alive]
  simp

theorem idle_nodup (v : View) (rows : List (String × String × String)) (h : (rows.map (·.1)).Nodup) : (idleOf v rows).Nodup := by
  unfold idleOf aliveOf
  exact (List.Sublist.trans List.filter_sublist (List.Sublist.map _ List.filter_sublist)).nodup h

theorem halted_nodup (limit : Int) (p : List (String × Cmd)) (cls : List Cl) (hp : (keys p).Nodup) : (halted (launch limit p cls).1).Nodup := by
  obtain ⟨l1, l2, _⟩ := launch_spec limit p cls
  have h1 : ((launch limit p cls).1.map (fun x => x.2)).Sublist (keys p) := by
    have := l2.map (fun x : String × Cmd => x.1)
    rw [← l1, List.map_map] at this
    exact this
  unfold halted
  exact (List.Sublist.trans (List.Sublist.map _ List.filter_sublist) h1).nodup hp

theorem mem_halted (l : List (Cmd × String)) (n : String) : n ∈ halted l ↔ (Cmd.halt, n) ∈ l := by
  unfold halted
  rw [List.mem_map]
  constructor
  · rintro ⟨⟨c, m⟩, h, rfl⟩
    rw [List.mem_filter] at h
    have : c = .halt := by simpa using h.2
    rw [← this]
    exact h.1
  · intro h
    exact ⟨_, List.mem_filter.2 ⟨h, by simp⟩, rfl⟩

theorem filter_split (l h : List String) (hl : l.Nodup) (P : String → Bool) (hP : ∀ n ∈ l, P n = true) :
    l.length ≤ (l.filter (fun n => decide (n ∉ h))).length + (h.filter P).length := by
  have h1 : (l.filter (fun n => decide (n ∈ h))).length ≤ (h.filter P).length := by
    refine List.Nodup.length_le_of_subset (List.filter_sublist.nodup hl) (fun n hn => ?_)
    rw [List.mem_filter] at hn
    exact List.mem_filter.2 ⟨by simpa using hn.2, hP n hn.1⟩
  have h2 : l.length = (l.filter (fun n => decide (n ∉ h))).length + (l.filter (fun n => decide (n ∈ h))).length := by
    clear h1 hl hP
    induction l with
    | nil => rfl
    | cons x l ih =>
      by_cases hx : x ∈ h
      · rw [List.filter_cons_of_neg (by simpa using hx), List.filter_cons_of_pos (by simpa using hx), List.length_cons, List.length_cons]
        omega
      · rw [List.filter_cons_of_pos (by simpa using hx), List.filter_cons_of_neg (by simpa using hx), List.length_cons, List.length_cons]
        omega
  omega

/-- C37: after the commands of a cycle, a class of ENERGY_SAVING_NODES_KEEPALIVE has at least its minimum of idle nodes not halted, or none of
its idle nodes was halted, when each node has its resources in a single state (one row for each node). -/
theorem keepalive_kept_partial (ts : List (Nat × Nat)) (v : View) (s : St) (msg : Option (Cmd × List String)) (hrem : (keys s.remind).Nodup)
    (s' : St) (cmds : List (Cmd × String)) (sus : List String) (h : cycle ts v s msg = some (s', cmds, sus))
    (c : Nat × List (String × String × String)) (hc : c ∈ v.classes) (h1 : (c.2.map (·.1)).Nodup)
    (idle : List String) (hi : idle.Nodup) (hm : ∀ n, n ∈ idle ↔ Idle v c.2 n) :
    min c.1 idle.length ≤ (idle.filter (fun n => decide ((Cmd.halt, n) ∉ cmds))).length := by
  obtain ⟨t, ht, _, _, _, hcmd, _⟩ := cycle_out ts v s msg hrem _ h
  dsimp only at hcmd
  obtain ⟨_, _, _, _, f, _⟩ := launch_spec (v.now + t) (processOf v s msg).1 (classesOf v)
  have hf := f _ (List.mem_map.2 ⟨c, hc, rfl⟩)
  have hn := halted_nodup (v.now + t) (processOf v s msg).1 (classesOf v) (process_spec v s msg hrem).1
  rw [← hcmd] at hf hn
  dsimp only at hf
  have hlen : (idleOf v c.2).length = idle.length := by
    apply Nat.le_antisymm
    · exact List.Nodup.length_le_of_subset (idle_nodup v c.2 h1) (fun n hn => (hm n).2 ((mem_idle v c.2 n).1 hn))
    · exact List.Nodup.length_le_of_subset hi (fun n hn => (mem_idle v c.2 n).2 ((hm n).1 hn))
  rw [hlen] at hf
  have := filter_split idle (halted cmds) hi (fun n => (c.2.map (·.1)).contains n) (fun n hn => by
    obtain ⟨⟨st, nx, hr, _⟩, _⟩ := (hm n).1 hn
    rw [List.contains_iff_mem]
    exact List.mem_map.2 ⟨_, hr, rfl⟩)
  simp only [mem_halted] at this
  omega

/-- C37: a node whose resources are in two different states is counted twice, so the last idle node of a class can be halted:
here one node is to be kept and the only one is halted. -/
theorem keepalive_kept_violated : ∃ (v : View) (s : St) (s' : St) (cmds : List (Cmd × String)),
    cycle [(1, 900)] v s (some (.halt, ["n1"])) = some (s', cmds, []) ∧ v.classes = [(1, [("n1", "Alive", "UnChanged"), ("n1", "Suspected", "Alive")])] ∧
    cmds = [(.halt, "n1")] :=
  ⟨⟨[(1, [("n1", "Alive", "UnChanged"), ("n1", "Suspected", "Alive")])], [], [], ["n1"], 100⟩, ⟨[], [], []⟩,
    ⟨[("n1", .halt, -1)], [], [("n1", .halt, 100)]⟩, [(.halt, "n1")], by decide +kernel, rfl, rfl⟩

/-- C37: a node gets at most one command in a cycle, none when a command is still in progress for it, and the commands in progress of the next cycle are
those still in progress and the new ones, at most one for each node. -/
theorem one_command (ts : List (Nat × Nat)) (v : View) (s : St) (msg : Option (Cmd × List String)) (hrem : (keys s.remind).Nodup) (hrun : (keys s.running).Nodup)
    (s' : St) (cmds : List (Cmd × String)) (sus : List String) (h : cycle ts v s msg = some (s', cmds, sus)) :
    (cmds.map (·.2)).Nodup ∧ (∀ x ∈ cmds, ∀ e ∈ s.running, e.1 = x.2 → e.2.1 = .wakeup ∧ (e.1 ∈ v.alive ∨ e.2.2 < v.now)) ∧
    (keys s'.running).Nodup ∧ (keys s'.remind).Nodup ∧
    ∀ n c, (∃ d, (n, c, d) ∈ s'.running) ↔ (c, n) ∈ cmds ∨ ∃ d, (n, c, d) ∈ s.running ∧ ¬ (c = .wakeup ∧ (n ∈ v.alive ∨ d < v.now)) := by
  obtain ⟨t, ht, hr, hm, _, hcmd, _, hn, hd⟩ := cycle_out ts v s msg hrem _ h
  dsimp only at hr hm hcmd
  obtain ⟨l1, l2, _⟩ := launch_spec (v.now + t) (processOf v s msg).1 (classesOf v)
  obtain ⟨_, p2, p3, _⟩ := process_spec v s msg hrem
  rw [← hcmd] at l1
  have hkeys : cmds.map (·.2) = keys (launch (v.now + t) (processOf v s msg).1 (classesOf v)).2 := by
    have := congrArg (List.map (fun x : String × Cmd => x.1)) l1
    rw [List.map_map, List.map_map] at this
    exact this
  refine ⟨hkeys ▸ hn, fun x hx e he hex => ?_, ?_, hm ▸ p2, fun n c => ?_⟩
  · have hx' : x.2 ∈ keys (launch (v.now + t) (processOf v s msg).1 (classesOf v)).2 := hkeys ▸ List.mem_map.2 ⟨x, hx, rfl⟩
    obtain ⟨y, hy, hyx⟩ := List.mem_map.1 hx'
    have hns := hd y hy
    have hb : bootEnds v e = true := by
      apply Classical.byContradiction
      intro hb
      exact hns (List.mem_map.2 ⟨e, List.mem_filter.2 ⟨he, by simp [hb]⟩, hex.trans hyx.symm⟩)
    simpa [bootEnds] using hb
  · rw [hr]
    unfold keys
    rw [List.map_append, List.nodup_append]
    refine ⟨still_nodup v s hrun, hn, fun a ha b hb e => ?_⟩
    obtain ⟨y, hy, hyx⟩ := List.mem_map.1 hb
    exact hd y hy (hyx ▸ e ▸ ha)
  · rw [hr]
    constructor
    · rintro ⟨d, hd'⟩
      rcases List.mem_append.1 hd' with h' | h'
      · rw [List.mem_filter] at h'
        exact Or.inr ⟨d, h'.1, (boot_iff v n c d).1 h'.2⟩
      · left
        have : (n, c) ∈ (launch (v.now + t) (processOf v s msg).1 (classesOf v)).2.map (fun x => (x.1, x.2.1)) := List.mem_map.2 ⟨_, h', rfl⟩
        rw [← l1] at this
        obtain ⟨⟨y1, y2⟩, hy, e⟩ := List.mem_map.1 this
        cases e
        exact hy
    · rintro (h' | ⟨d, h', h2⟩)
      · rw [hcmd] at h'
        obtain ⟨_, d, hd'⟩ := launched_mem _ _ _ _ _ h'
        exact ⟨d, List.mem_append_right _ hd'⟩
      · exact ⟨d, List.mem_append_left _ (List.mem_filter.2 ⟨h', (boot_iff v n c d).2 h2⟩)⟩

/-- C37: a node is halted only when it was asked now or earlier (and remembered); it is woken up for the same reasons, or when a class lacks idle nodes. -/
theorem command_origin (ts : List (Nat × Nat)) (v : View) (s : St) (msg : Option (Cmd × List String)) (hrem : (keys s.remind).Nodup)
    (s' : St) (cmds : List (Cmd × String)) (sus : List String) (h : cycle ts v s msg = some (s', cmds, sus)) (c : Cmd) (n : String) (hx : (c, n) ∈ cmds) :
    (n, c) ∈ s.remind ∨ (∃ ns, msg = some (c, ns) ∧ n ∈ ns) ∨ (c = .wakeup ∧ n ∈ v.can ∧ ∃ k ∈ v.classes, n ∈ k.2.map (·.1) ∧ (¬ ∃ st nx, (n, st, nx) ∈ k.2 ∧ (st = "Alive" ∨ nx = "Alive")) ∧
      ∀ idle : List String, idle.Nodup → (∀ m ∈ idle, Idle v k.2 m) → idle.length < k.1) := by
  obtain ⟨t, ht, _, _, _, hcmd, _⟩ := cycle_out ts v s msg hrem _ h
  dsimp only at hcmd
  rw [hcmd] at hx
  rcases (process_spec v s msg hrem).2.2.2.1 _ (launched_mem _ _ _ _ _ hx).1 with ⟨h1, h2, k, hk, hl1, hl2⟩ | h | h
  · refine Or.inr (Or.inr ⟨h1, h2, k, hk, ?_, ?_, fun idle hn hi => ?_⟩)
    · exact (List.mem_filter.1 hl2).1
    · rw [← mem_alive]
      have := (List.mem_filter.1 hl2).2
      simpa using this
    · exact Nat.lt_of_le_of_lt (List.Nodup.length_le_of_subset hn (fun m hm => (mem_idle v k.2 m).2 (hi m hm))) hl1
  · exact Or.inl h
  · exact Or.inr (Or.inl h)

/-- C37: a node of the message is launched now, or is refused since a class with it has no idle node in excess (HALT), or the same command is already in progress for it, or
is remembered, or the node has just been suspected. -/
theorem request_answered (ts : List (Nat × Nat)) (v : View) (s : St) (cmd : Cmd) (ns : List String) (hrem : (keys s.remind).Nodup)
    (s' : St) (cmds : List (Cmd × String)) (sus : List String) (h : cycle ts v s (some (cmd, ns)) = some (s', cmds, sus)) (n : String) (hn : n ∈ ns) :
    (cmd, n) ∈ cmds ∨
    (cmd = .halt ∧ ∃ k ∈ v.classes, n ∈ k.2.map (·.1) ∧ (idleOf v k.2).length ≤ k.1 + ((halted cmds).filter (fun m => (k.2.map (·.1)).contains m)).length) ∨
    (∃ d, (n, cmd, d) ∈ s.running ∧ (n, cmd, d) ∈ s'.running) ∨ (n, cmd) ∈ s'.remind ∨ n ∈ sus := by
  obtain ⟨t, ht, hr, hm, _, hcmd, hs, _⟩ := cycle_out ts v s _ hrem _ h
  dsimp only at hcmd hr hm hs
  obtain ⟨_, _, l3, _, _, l6⟩ := launch_spec (v.now + t) (processOf v s (some (cmd, ns))).1 (classesOf v)
  rcases ((process_spec v s _ hrem).2.2.2.2.2.2.2.2 cmd ns rfl).2 n hn with h | h | ⟨d, h⟩ | h
  · exact Or.inr (Or.inr (Or.inr (Or.inr (hs ▸ h))))
  · cases cmd with
    | wakeup => exact Or.inl (hcmd ▸ l3 n h)
    | halt =>
      rcases l6 n h with h | ⟨c, hc, h1, h2⟩
      · exact Or.inl (hcmd ▸ h)
      · obtain ⟨k, hk, rfl⟩ := List.mem_map.1 hc
        rw [← hcmd] at h2
        dsimp only at h1 h2
        refine Or.inr (Or.inl ⟨rfl, k, hk, h1, ?_⟩)
        omega
  · exact Or.inr (Or.inr (Or.inl ⟨d, (List.mem_filter.1 h).1, hr ▸ List.mem_append_left _ h⟩))
  · exact Or.inr (Or.inr (Or.inr (Or.inl (hm ▸ h))))

end Oar.Greta
