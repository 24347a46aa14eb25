import Verif.Phoenix

/-!
# C76: repair of broken nodes
-/

namespace Oar.Phoenix

/-! ## Dictionaries -/

theorem lookup_append (a b : Status) (n : String) : (a ++ b).lookup n = (a.lookup n).or (b.lookup n) := by
  induction a with
  | nil => rfl
  | cons e a ih =>
    obtain ⟨k, v⟩ := e
    rw [List.cons_append, List.lookup_cons, List.lookup_cons]
    cases n == k with
    | true => rfl
    | false => exact ih

theorem lookup_filter (p : String → Bool) (s : Status) (n : String) : (s.filter (fun e => p e.1)).lookup n = if p n then s.lookup n else none := by
  induction s with
  | nil => simp
  | cons e s ih =>
    obtain ⟨k, v⟩ := e
    by_cases hk : p k = true
    · rw [List.filter_cons_of_pos (by simpa using hk), List.lookup_cons, List.lookup_cons, ih]
      by_cases h : n = k
      · subst h
        simp [hk]
      · rw [show (n == k) = false from by simpa using h]
    · rw [List.filter_cons_of_neg (by simpa using hk), List.lookup_cons, ih]
      by_cases h : n = k
      · subst h
        simp [hk]
      · rw [show (n == k) = false from by simpa using h]

theorem lookup_set (s : Status) (n m : String) (b : Boot) : (set s n b).lookup m = if m = n then some b else s.lookup m := by
  unfold set
  have e := lookup_filter (fun k => decide (k ≠ n)) s m
  rw [lookup_append, e]
  by_cases h : m = n
  · subst h; simp
  · simp [h, List.lookup]
    rw [show (m == n) = false from by simpa using h]
    cases List.lookup m s <;> rfl

theorem lookup_clean (s : Status) (br : List String) (n : String) : (clean s br).lookup n = if n ∈ br then s.lookup n else none := by
  unfold clean
  have e := lookup_filter (fun k => decide (k ∈ br)) s n
  rw [e]
  by_cases h : n ∈ br <;> simp [h]

theorem lookup_foldl (f : String → Boot) (m : String) : ∀ (ns : List String) (s : Status),
    (ns.foldl (fun s n => set s n (f n)) s).lookup m = if m ∈ ns then some (f m) else s.lookup m
  | [], s => by simp
  | n :: ns, s => by
    rw [List.foldl_cons, lookup_foldl f m ns, lookup_set]
    by_cases h1 : m ∈ ns
    · simp [h1]
    · by_cases h2 : m = n
      · subst h2; simp [h1]
      · simp [h1, h2]

/-! ## The nodes chosen -/

theorem take_sub (max : Int) (test : String → Bool) : ∀ (l : List String) (c : Int), (take max test l c).Sublist (l.filter test)
  | [], _ => by simp [take]
  | n :: ns, c => by
    rw [take]
    by_cases h : test n = true
    · rw [if_pos h, List.filter_cons_of_pos h]
      split
      · exact (List.nil_sublist _).cons_cons n
      · exact (take_sub max test ns (c + 1)).cons_cons n
    · rw [if_neg h, List.filter_cons_of_neg h]
      split
      · exact List.nil_sublist _
      · exact take_sub max test ns c

/-- With a positive maximum, the nodes chosen are the first ones that satisfy the test. -/
theorem take_eq (max : Int) (test : String → Bool) : ∀ (l : List String) (c : Int), c < max → take max test l c = (l.filter test).take (max - c).toNat
  | [], _, _ => by simp [take]
  | n :: ns, c, hc => by
    rw [take]
    by_cases h : test n = true
    · rw [if_pos h, List.filter_cons_of_pos h]
      by_cases h2 : c + 1 ≥ max
      · rw [if_pos h2, show (max - c).toNat = 0 + 1 by omega, List.take_succ_cons, List.take_zero]
      · rw [if_neg h2, take_eq max test ns (c + 1) (by omega), show (max - c).toNat = (max - (c + 1)).toNat + 1 by omega, List.take_succ_cons]
    · rw [if_neg h, List.filter_cons_of_neg h, if_neg (by omega), take_eq max test ns c hc]

theorem mem_softNodes {s : Status} {r : Run} {n : String} (h : n ∈ softNodes s r) : n ∈ r.broken ∧ s.lookup n = none := by
  have := (take_sub _ _ _ _).subset h
  rw [List.mem_filter] at this
  refine ⟨this.1, ?_⟩
  have h2 := this.2
  unfold isNew at h2
  rw [lookup_clean, if_pos this.1, Option.isNone_iff_eq_none] at h2
  exact h2

theorem lookup_afterSoft (s : Status) (r : Run) (n : String) :
    (afterSoft s r).lookup n = if n ∈ softNodes s r then some (.soft (r.tSoft n)) else if n ∈ r.broken then s.lookup n else none := by
  unfold afterSoft softReboot
  rw [lookup_foldl (fun n => .soft (r.tSoft n)), lookup_clean]

theorem isLate_iff (r : Run) (s : Status) (n : String) : isLate r s n = true ↔ ∃ t, s.lookup n = some (.soft t) ∧ t + r.timeout < r.tCheck n := by
  unfold isLate
  split
  · rename_i t h
    rw [h, decide_eq_true_eq]
    constructor
    · intro h2; exact ⟨t, rfl, by omega⟩
    · rintro ⟨t', e, h2⟩
      injection e with e; injection e with e
      omega
  · rename_i h
    constructor
    · intro h2; exact absurd h2 (by simp)
    · rintro ⟨t, e, _⟩; exact absurd e (h t)

theorem mem_hardNodes {s : Status} {r : Run} {n : String} (h : n ∈ hardNodes s r) :
    n ∈ r.broken ∧ ∃ t, (afterSoft s r).lookup n = some (.soft t) ∧ t + r.timeout < r.tCheck n := by
  have := (take_sub _ _ _ _).subset h
  rw [List.mem_filter] at this
  exact ⟨this.1, (isLate_iff _ _ _).1 this.2⟩

theorem lookup_run (s : Status) (r : Run) (n : String) : (run s r).1.lookup n =
    if n ∈ hardNodes s r then some (.hard (r.tHard n)) else if n ∈ softNodes s r then some (.soft (r.tSoft n)) else
      if n ∈ r.broken then s.lookup n else none := by
  show (hardReboot r (afterSoft s r) (hardNodes s r)).lookup n = _
  unfold hardReboot
  rw [lookup_foldl (fun n => .hard (r.tHard n)), lookup_afterSoft]

theorem soft_mem (s : Status) (r : Run) (n : String) : Cmd.soft n ∈ (run s r).2 ↔ n ∈ softNodes s r := by
  show Cmd.soft n ∈ (softNodes s r).map Cmd.soft ++ (hardNodes s r).map Cmd.hard ↔ _
  rw [List.mem_append, List.mem_map, List.mem_map]
  constructor
  · rintro (⟨x, hx, e⟩ | ⟨x, hx, e⟩)
    · injection e with e; rw [← e]; exact hx
    · exact absurd e (by simp)
  · intro h; exact Or.inl ⟨n, h, rfl⟩

theorem hard_mem (s : Status) (r : Run) (n : String) : Cmd.hard n ∈ (run s r).2 ↔ n ∈ hardNodes s r := by
  show Cmd.hard n ∈ (softNodes s r).map Cmd.soft ++ (hardNodes s r).map Cmd.hard ↔ _
  rw [List.mem_append, List.mem_map, List.mem_map]
  constructor
  · rintro (⟨x, hx, e⟩ | ⟨x, hx, e⟩)
    · exact absurd e (by simp)
    · injection e with e; rw [← e]; exact hx
  · intro h; exact Or.inr ⟨n, h, rfl⟩

/-- **C76, one run.** A node is rebooted softly only if it is broken and was not known as such; it is rebooted the hard way only if it is
broken and its soft reboot is older than the delay; a positive maximum bounds both numbers. -/
theorem run_sound (s : Status) (r : Run) :
    (∀ n, Cmd.soft n ∈ (run s r).2 → n ∈ r.broken ∧ s.lookup n = none) ∧
    (∀ n, Cmd.hard n ∈ (run s r).2 → n ∈ r.broken ∧ ∃ t, (s.lookup n = some (.soft t) ∨ Cmd.soft n ∈ (run s r).2 ∧ t = r.tSoft n) ∧ t + r.timeout < r.tCheck n) ∧
    (0 < r.max → ((run s r).2.countP (fun c => match c with | .soft _ => true | .hard _ => false) : Int) ≤ r.max ∧
      ((run s r).2.countP (fun c => match c with | .soft _ => false | .hard _ => true) : Int) ≤ r.max) := by
  refine ⟨fun n h => mem_softNodes ((soft_mem s r n).1 h), ?_, ?_⟩
  · intro n h
    obtain ⟨h1, t, h2, h3⟩ := mem_hardNodes ((hard_mem s r n).1 h)
    refine ⟨h1, t, ?_, h3⟩
    rw [lookup_afterSoft] at h2
    by_cases hs : n ∈ softNodes s r
    · rw [if_pos hs] at h2
      injection h2 with h2; injection h2 with h2
      exact Or.inr ⟨(soft_mem s r n).2 hs, h2.symm⟩
    · rw [if_neg hs, if_pos h1] at h2
      exact Or.inl h2
  · intro hm
    have l1 : ((softNodes s r).length : Int) ≤ r.max := by
      unfold softNodes
      rw [take_eq _ _ _ _ hm, List.length_take]
      omega
    have l2 : ((hardNodes s r).length : Int) ≤ r.max := by
      unfold hardNodes
      rw [take_eq _ _ _ _ hm, List.length_take]
      omega
    have e1 : ∀ l : List String, (l.map Cmd.soft).countP (fun c => match c with | .soft _ => true | .hard _ => false) = l.length := by
      intro l; induction l with
      | nil => rfl
      | cons a l ih => rw [List.map_cons, List.countP_cons_of_pos rfl, ih]; rfl
    have e2 : ∀ l : List String, (l.map Cmd.hard).countP (fun c => match c with | .soft _ => true | .hard _ => false) = 0 := by
      intro l; induction l with
      | nil => rfl
      | cons a l ih => rw [List.map_cons, List.countP_cons_of_neg (by simp), ih]
    have e3 : ∀ l : List String, (l.map Cmd.soft).countP (fun c => match c with | .soft _ => false | .hard _ => true) = 0 := by
      intro l; induction l with
      | nil => rfl
      | cons a l ih => rw [List.map_cons, List.countP_cons_of_neg (by simp), ih]
    have e4 : ∀ l : List String, (l.map Cmd.hard).countP (fun c => match c with | .soft _ => false | .hard _ => true) = l.length := by
      intro l; induction l with
      | nil => rfl
      | cons a l ih => rw [List.map_cons, List.countP_cons_of_pos rfl, ih]; rfl
    show (((softNodes s r).map Cmd.soft ++ (hardNodes s r).map Cmd.hard).countP _ : Int) ≤ _ ∧ (((softNodes s r).map Cmd.soft ++ (hardNodes s r).map Cmd.hard).countP _ : Int) ≤ _
    rw [List.countP_append, List.countP_append, e1, e2, e3, e4]
    omega

/-- The soft reboot of a node, made by an earlier run or by this one, is older than the delay. -/
def Late (s : Status) (r : Run) (n : String) : Prop :=
  ∃ t, (s.lookup n = some (.soft t) ∨ Cmd.soft n ∈ (run s r).2 ∧ t = r.tSoft n) ∧ t + r.timeout < r.tCheck n

open Classical in
/-- **C76, completeness of one run.** With a positive maximum, the soft reboots are the first broken nodes not known as such, the hard reboots
are the first broken nodes whose soft reboot is older than the delay. -/
theorem run_complete (s : Status) (r : Run) (hm : 0 < r.max) : (run s r).2 =
    (((r.broken.filter (fun n => (s.lookup n).isNone)).take r.max.toNat).map Cmd.soft) ++
    (((r.broken.filter (fun n => decide (Late s r n))).take r.max.toNat).map Cmd.hard) := by
  have h2 : r.broken.filter (isLate r (afterSoft s r)) = r.broken.filter (fun n => decide (Late s r n)) := by
    apply List.filter_congr
    intro n hn
    rw [Bool.eq_iff_iff, decide_eq_true_eq, isLate_iff, Late]
    constructor
    · rintro ⟨t, h, h3⟩
      rw [lookup_afterSoft] at h
      by_cases hs : n ∈ softNodes s r
      · rw [if_pos hs] at h
        injection h with h; injection h with h
        exact ⟨t, Or.inr ⟨(soft_mem s r n).2 hs, h.symm⟩, h3⟩
      · rw [if_neg hs, if_pos hn] at h
        exact ⟨t, Or.inl h, h3⟩
    · rintro ⟨t, h | ⟨h, rfl⟩, h3⟩
      · refine ⟨t, ?_, h3⟩
        rw [lookup_afterSoft, if_neg, if_pos hn, h]
        intro hs
        rw [(mem_softNodes hs).2] at h
        exact absurd h (by simp)
      · exact ⟨_, by rw [lookup_afterSoft, if_pos ((soft_mem s r n).1 h)], h3⟩
  rw [← h2]
  show (softNodes s r).map Cmd.soft ++ (hardNodes s r).map Cmd.hard = _
  unfold softNodes hardNodes
  rw [take_eq _ _ _ _ hm, take_eq _ _ _ _ hm]
  have : r.broken.filter (isNew (clean s r.broken)) = r.broken.filter (fun n => (s.lookup n).isNone) := by
    apply List.filter_congr
    intro n hn
    unfold isNew
    rw [lookup_clean, if_pos hn]
  rw [this]
  simp

/-! ## Histories -/

/-- The number of commands of a history. -/
def count (c : Cmd) (h : List (List Cmd)) : Nat := (h.map (fun l => l.count c)).sum

theorem count_soft (s : Status) (r : Run) (n : String) : (run s r).2.count (Cmd.soft n) = (softNodes s r).count n := by
  show ((softNodes s r).map Cmd.soft ++ (hardNodes s r).map Cmd.hard).count _ = _
  rw [List.count_append]
  have e1 : ∀ l : List String, (l.map Cmd.soft).count (Cmd.soft n) = l.count n := by
    intro l; induction l with
    | nil => rfl
    | cons a l ih =>
      rw [List.map_cons, List.count_cons, List.count_cons, ih]
      by_cases h : a = n <;> simp [h]
  have e2 : ∀ l : List String, (l.map Cmd.hard).count (Cmd.soft n) = 0 := by
    intro l; induction l with
    | nil => rfl
    | cons a l ih => rw [List.map_cons, List.count_cons, ih]; simp
  rw [e1, e2, Nat.add_zero]

theorem count_hard (s : Status) (r : Run) (n : String) : (run s r).2.count (Cmd.hard n) = (hardNodes s r).count n := by
  show ((softNodes s r).map Cmd.soft ++ (hardNodes s r).map Cmd.hard).count _ = _
  rw [List.count_append]
  have e1 : ∀ l : List String, (l.map Cmd.hard).count (Cmd.hard n) = l.count n := by
    intro l; induction l with
    | nil => rfl
    | cons a l ih =>
      rw [List.map_cons, List.count_cons, List.count_cons, ih]
      by_cases h : a = n <;> simp [h]
  have e2 : ∀ l : List String, (l.map Cmd.soft).count (Cmd.hard n) = 0 := by
    intro l; induction l with
    | nil => rfl
    | cons a l ih => rw [List.map_cons, List.count_cons, ih]; simp
  rw [e1, e2, Nat.zero_add]

theorem count_le_one {l : List String} (h : l.Nodup) (n : String) : l.count n ≤ 1 := List.nodup_iff_count.1 h n

/-- What remains to be sent to a node, according to its entry. -/
def budget (e : Option Boot) : Nat × Nat :=
  match e with
  | none => (1, 1)
  | some (.soft _) => (0, 1)
  | some (.hard _) => (0, 0)

theorem history_budget (n : String) : ∀ (rs : List Run) (s : Status), (∀ r ∈ rs, r.broken.Nodup ∧ n ∈ r.broken) →
    count (Cmd.soft n) (history s rs) ≤ (budget (s.lookup n)).1 ∧ count (Cmd.hard n) (history s rs) ≤ (budget (s.lookup n)).2
  | [], s, _ => by simp [history, count]
  | r :: rs, s, h => by
    obtain ⟨hnd, hb⟩ := h r List.mem_cons_self
    obtain ⟨i1, i2⟩ := history_budget n rs (run s r).1 (fun x hx => h x (List.mem_cons_of_mem _ hx))
    have hsn : (softNodes s r).count n ≤ 1 := count_le_one ((take_sub _ _ _ _).nodup (hnd.sublist List.filter_sublist)) n
    have hhn : (hardNodes s r).count n ≤ 1 := count_le_one ((take_sub _ _ _ _).nodup (hnd.sublist List.filter_sublist)) n
    have c1 : count (Cmd.soft n) (history s (r :: rs)) = (softNodes s r).count n + count (Cmd.soft n) (history (run s r).1 rs) := by
      show ((_ : List Cmd).count _ :: _).sum = _
      rw [List.sum_cons, count_soft]; rfl
    have c2 : count (Cmd.hard n) (history s (r :: rs)) = (hardNodes s r).count n + count (Cmd.hard n) (history (run s r).1 rs) := by
      show ((_ : List Cmd).count _ :: _).sum = _
      rw [List.sum_cons, count_hard]; rfl
    rw [c1, c2]
    rw [lookup_run] at i1 i2
    by_cases hs : n ∈ softNodes s r
    · have e := (mem_softNodes hs).2
      rw [e]
      by_cases hh : n ∈ hardNodes s r
      · rw [if_pos hh] at i1 i2
        simp only [budget] at i1 i2 ⊢
        omega
      · rw [if_neg hh, if_pos hs] at i1 i2
        have : (hardNodes s r).count n = 0 := List.count_eq_zero.2 hh
        simp only [budget] at i1 i2 ⊢
        omega
    · have hs0 : (softNodes s r).count n = 0 := List.count_eq_zero.2 hs
      by_cases hh : n ∈ hardNodes s r
      · obtain ⟨_, t, h2, _⟩ := mem_hardNodes hh
        rw [lookup_afterSoft, if_neg hs, if_pos hb] at h2
        rw [if_pos hh] at i1 i2
        rw [h2]
        simp only [budget] at i1 i2 ⊢
        omega
      · have : (hardNodes s r).count n = 0 := List.count_eq_zero.2 hh
        rw [if_neg hh, if_neg hs, if_pos hb] at i1 i2
        omega

/-- **C76, histories.** As long as a node stays broken, from whatever status, it is rebooted softly at most once and the hard way at most once
(the rows of the broken nodes naming each node once). -/
theorem phoenix_once_partial (n : String) (rs : List Run) (s : Status) (h : ∀ r ∈ rs, r.broken.Nodup ∧ n ∈ r.broken) :
    count (Cmd.soft n) (history s rs) ≤ 1 ∧ count (Cmd.hard n) (history s rs) ≤ 1 := by
  obtain ⟨h1, h2⟩ := history_budget n rs s h
  have : (budget (s.lookup n)).1 ≤ 1 ∧ (budget (s.lookup n)).2 ≤ 1 := by
    cases s.lookup n with
    | none => exact ⟨Nat.le_refl _, Nat.le_refl _⟩
    | some b => cases b <;> simp [budget]
  omega

theorem history_append (s : Status) : ∀ (a b : List Run), history s (a ++ b) = history s a ++ history (a.foldl (fun s r => (run s r).1) s) b := by
  intro a
  induction a generalizing s with
  | nil => intro b; rfl
  | cons r a ih => intro b; rw [List.cons_append, history, ih]; rfl

/-- Every entry of the status comes from a command of an earlier run. -/
theorem entry_origin (n : String) (s : Status) (hs : s.lookup n = none) : ∀ (k : Nat) (rs : List Run), rs.length = k → ∀ t,
    (rs.foldl (fun s r => (run s r).1) s).lookup n = some (.soft t) →
    ∃ a r b, rs = a ++ r :: b ∧ Cmd.soft n ∈ (run (a.foldl (fun s r => (run s r).1) s) r).2 ∧ t = r.tSoft n ∧ ∀ x ∈ b, n ∈ x.broken := by
  intro k
  induction k with
  | zero => intro rs hl t h; rw [List.length_eq_zero_iff.1 hl, List.foldl_nil, hs] at h; exact absurd h (by simp)
  | succ k ih =>
    intro l hl t h
    have hne : l ≠ [] := by intro h0; rw [h0] at hl; exact absurd hl (by simp)
    have hdl := List.dropLast_concat_getLast hne
    generalize hrs : l.dropLast = rs at hdl
    generalize l.getLast hne = r at hdl
    subst hdl
    have hk : rs.length = k := by rw [List.length_append, List.length_singleton] at hl; omega
    rw [List.foldl_append, List.foldl_cons, List.foldl_nil, lookup_run] at h
    by_cases hh : n ∈ hardNodes (rs.foldl (fun s r => (run s r).1) s) r
    · rw [if_pos hh] at h; exact absurd h (by simp)
    · rw [if_neg hh] at h
      by_cases hsn : n ∈ softNodes (rs.foldl (fun s r => (run s r).1) s) r
      · rw [if_pos hsn] at h
        injection h with h; injection h with h
        exact ⟨rs, r, [], rfl, (soft_mem _ _ _).2 hsn, h.symm, by simp⟩
      · rw [if_neg hsn] at h
        by_cases hb : n ∈ r.broken
        · rw [if_pos hb] at h
          obtain ⟨a, r', b, e, h1, h2, h3⟩ := ih rs hk t h
          refine ⟨a, r', b ++ [r], by rw [e]; simp, h1, h2, ?_⟩
          intro x hx
          rcases List.mem_append.1 hx with hx | hx
          · exact h3 x hx
          · rw [List.mem_singleton.1 hx]; exact hb
        · rw [if_neg hb] at h; exact absurd h (by simp)

/-- **C76.** A hard reboot always comes after a soft reboot of the same node, older than the delay, and the node has stayed broken in all the
runs between them. -/
theorem hard_after_soft (n : String) (pre : List Run) (r : Run)
    (h : Cmd.hard n ∈ (run (pre.foldl (fun s r => (run s r).1) []) r).2) :
    n ∈ r.broken ∧ ∃ a r' b, pre ++ [r] = a ++ r' :: b ∧ Cmd.soft n ∈ (run (a.foldl (fun s r => (run s r).1) []) r').2 ∧
      r'.tSoft n + r.timeout < r.tCheck n ∧ ∀ x ∈ b, n ∈ x.broken := by
  obtain ⟨h1, t, h2, h3⟩ := (run_sound _ r).2.1 n h
  refine ⟨h1, ?_⟩
  rcases h2 with h2 | ⟨h2, rfl⟩
  · obtain ⟨a, r', b, e, g1, rfl, g3⟩ := entry_origin n [] rfl _ pre rfl t h2
    refine ⟨a, r', b ++ [r], by rw [e]; simp, g1, h3, ?_⟩
    intro x hx
    rcases List.mem_append.1 hx with hx | hx
    · exact g3 x hx
    · rw [List.mem_singleton.1 hx]; exact h1
  · exact ⟨pre, r, [], rfl, h2, h3, by simp⟩

/-! ## Concrete cases, disagreements -/

/-- A run at date `now`, at most two reboots, 300 seconds. -/
def ex (now : Int) (broken : List String) : Run := ⟨2, 300, broken, fun _ => now, fun _ => now, fun _ => now⟩

/-- Three broken nodes: two are rebooted, then the third one; the first one comes back; the second one is rebooted the hard way. -/
example : history [] [ex 0 ["a", "b", "c"], ex 100 ["a", "b", "c"], ex 350 ["b", "c"], ex 1000 ["b"]] =
    [[.soft "a", .soft "b"], [.soft "c"], [.hard "b"], []] := by decide +kernel

/-- C76 (violated). One would expect a node to be rebooted once: a node whose resources have two different next states comes in two rows
and is rebooted twice in the same run. -/
theorem phoenix_twice_violated : (run [] (ex 0 ["a", "a"])).2 = [.soft "a", .soft "a"] := by decide +kernel

/-- C76 (violated). One would expect the maximum to bound the reboots in progress: it bounds the soft ones and the hard ones of each run
separately; with a maximum of one, the third run sends two reboots while the one of the second run is in progress. -/
theorem phoenix_max_violated :
    let r := fun now => { ex now ["a", "b", "c"] with max := 1, timeout := 1 }
    history [] [r 0, r 1, r 2, r 3] = [[.soft "a"], [.soft "b"], [.soft "c", .hard "a"], [.hard "b"]] := by decide +kernel

/-- C76 (violated). With a maximum of zero, one node is rebooted in each run. -/
theorem phoenix_zero_violated (n : String) (ns : List String) (r : Run) (hm : r.max ≤ 0) (hb : r.broken = n :: ns) : (run [] r).2 = [.soft n] ∨
    (run [] r).2 = [.soft n, .hard n] := by
  have h1 : softNodes [] r = [n] := by
    unfold softNodes
    rw [hb, take]
    rw [if_pos (by unfold isNew; rw [lookup_clean]; simp), if_pos (by omega)]
  have h2 : hardNodes [] r = [] ∨ hardNodes [] r = [n] := by
    unfold hardNodes
    rw [hb, take]
    by_cases h : isLate r (afterSoft [] r) n = true
    · rw [if_pos h, if_pos (by omega)]; exact Or.inr rfl
    · rw [if_neg h, if_pos (by omega)]; exact Or.inl rfl
  have e : (run [] r).2 = (softNodes [] r).map Cmd.soft ++ (hardNodes [] r).map Cmd.hard := rfl
  rw [e, h1]
  rcases h2 with h2 | h2 <;> rw [h2]
  · exact Or.inl rfl
  · exact Or.inr rfl

/-- C76 (violated). One would expect a node that stays broken after its hard reboot to be treated again or reported: nothing is sent for it
any more, whatever the delay, as long as it stays broken. -/
theorem phoenix_forgotten_violated (n : String) : ∀ (rs : List Run) (s : Status) (t : Int), s.lookup n = some (.hard t) → (∀ r ∈ rs, n ∈ r.broken) →
    ∀ l ∈ history s rs, Cmd.soft n ∉ l ∧ Cmd.hard n ∉ l
  | [], _, _, _, _ => by simp [history]
  | r :: rs, s, t, hs, h => by
    have hb := h r List.mem_cons_self
    have h1 : n ∉ softNodes s r := fun hx => by have := (mem_softNodes hx).2; rw [hs] at this; exact absurd this (by simp)
    have h2 : n ∉ hardNodes s r := fun hx => by
      obtain ⟨_, t', e, _⟩ := mem_hardNodes hx
      rw [lookup_afterSoft, if_neg h1, if_pos hb, hs] at e
      exact absurd e (by simp)
    have hl : (run s r).1.lookup n = some (.hard t) := by rw [lookup_run, if_neg h2, if_neg h1, if_pos hb, hs]
    intro l hmem
    rw [history] at hmem
    rcases List.mem_cons.1 hmem with rfl | hmem
    · exact ⟨fun hx => h1 ((soft_mem s r n).1 hx), fun hx => h2 ((hard_mem s r n).1 hx)⟩
    · exact phoenix_forgotten_violated n rs (run s r).1 t hl (fun x hx => h x (List.mem_cons_of_mem _ hx)) l hmem

/-- C76 (violated). A run interrupted before its end does not remember the reboots it made: the next run makes the same soft reboots again. -/
theorem phoenix_crash_violated (s : Status) (r r' : Run) (hb : r'.broken = r.broken) (hm : r'.max = r.max) (n : String)
    (h : Cmd.soft n ∈ (crashed s r).2) : Cmd.soft n ∈ (run (crashed s r).1 r').2 := by
  show Cmd.soft n ∈ (run s r').2
  rw [soft_mem]
  have h2 : n ∈ softNodes s r := (soft_mem s r n).1 h
  unfold softNodes at h2 ⊢
  rw [hb, hm]
  exact h2

/-- C76 (violated). One would expect PHOENIX_STATUS_FILE to give the name of the file: another key is read, and without it the program
stops when it is loaded. -/
theorem phoenix_file_violated (config : String → Option String) (f : String) (h : config "PHOENIX_STATUS_FILE" = some f) :
    statusFile config = config "PHOENIX_DBFILE" := by
  unfold statusFile
  rw [h]
  rfl

end Oar.Phoenix
