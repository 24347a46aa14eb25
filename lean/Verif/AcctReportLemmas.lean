import Verif.AcctReportSpec

/-!
# C112 : lemmas
-/

namespace Oar.Report

open Oar.Accounting

/-! ## Alignment -/

theorem alignDown_dvd (size x : Int) : size ∣ alignDown size x := Int.dvd_mul_left _ _

theorem alignUp_dvd (size x : Int) : size ∣ alignUp size x := Int.dvd_mul_left _ _

theorem alignDown_le_iff {size w x : Int} (hs : 0 < size) (hw : size ∣ w) : alignDown size x ≤ w ↔ x < w + size := by
  obtain ⟨k, rfl⟩ := hw
  have h1 : x / size * size ≤ x := Int.ediv_mul_le _ (by omega)
  have h2 : x < (x / size + 1) * size := Int.lt_ediv_add_one_mul_self _ hs
  unfold alignDown
  constructor
  · intro h
    rw [Int.add_mul] at h2
    omega
  · intro h
    have h3 : x < (k + 1) * size := by rw [Int.add_mul, Int.mul_comm k]; omega
    have h4 : x / size < k + 1 := Int.ediv_lt_of_lt_mul hs h3
    rw [Int.mul_comm size k]
    exact Int.mul_le_mul_of_nonneg_right (by omega) (by omega)

theorem lt_alignUp_iff {size w x : Int} (hs : 0 < size) (hw : size ∣ w) : w < alignUp size x ↔ w < x := by
  have h := alignDown_le_iff (x := -x) (w := -(w + size)) hs (by
    obtain ⟨k, rfl⟩ := hw
    exact ⟨-(k + 1), by ring⟩)
  unfold alignDown at h
  unfold alignUp
  have e : -(-x / size) * size = -(-x / size * size) := by ring
  rw [e]
  have hd : size ∣ (-x / size * size) := Int.dvd_mul_left _ _
  constructor
  · intro hlt
    by_contra hge
    have h1 : -x / size * size ≤ -x := Int.ediv_mul_le _ (by omega)
    have h2 : -x < (-x / size + 1) * size := Int.lt_ediv_add_one_mul_self _ hs
    rw [Int.add_mul] at h2
    have h3 := windows_apart hs hw (b := -(-x / size * size)) ((Int.dvd_neg).2 hd) hlt
    omega
  · intro hlt
    have h1 : -x / size * size ≤ -x := Int.ediv_mul_le _ (by omega)
    omega

theorem alignDown_of_dvd {size x : Int} (h : size ∣ x) : alignDown size x = x := Int.ediv_mul_cancel h

theorem alignUp_of_dvd {size x : Int} (h : size ∣ x) : alignUp size x = x := by
  unfold alignUp
  have e : -(-x / size) * size = -(-x / size * size) := by ring
  rw [e, Int.ediv_mul_cancel ((Int.dvd_neg).2 h), Int.neg_neg]

/-! ## The windows of a run inside a period -/

theorem loop_period {size nb d1 d2 a b : Int} (hs : 0 < size) (ha : size ∣ a) (hb : size ∣ b)
    (h1 : ∀ w, size ∣ w → (d1 < w + size - 1 ↔ a ≤ w)) (h2 : ∀ w, size ∣ w → (w < d2 ↔ w < b)) :
    ∀ (fuel : Nat) (start stop ws : Int), size ∣ ws → ws ≤ start → start ≤ ws + size - 1 → stop - start ≤ fuel →
    ((windowsLoop size nb fuel start stop ws (ws + size - 1)).map
      (fun e => if d1 < e.2.1 ∧ e.1 < d2 then e.2.2 else 0)).sum = overlap start stop a b * nb
  | 0, start, stop, ws, _, _, _, hf => by
    have : overlap start stop a b = 0 := by unfold overlap; omega
    simp [windowsLoop, this]
  | fuel + 1, start, stop, ws, hd, g1, g2, hf => by
    unfold windowsLoop
    by_cases hst : stop > start
    · rw [if_pos hst]
      dsimp only
      have hd' : size ∣ (ws + size - 1 + 1) := by
        have : ws + size - 1 + 1 = ws + size := by omega
        rw [this]; exact Int.dvd_add hd (Int.dvd_refl _)
      have he : ws + size - 1 + size = (ws + size - 1 + 1) + size - 1 := by omega
      rw [he, List.map_cons, List.sum_cons, loop_period hs ha hb h1 h2 fuel (ws + size - 1 + 1) stop (ws + size - 1 + 1) hd'
        (by omega) (by omega) (by omega)]
      dsimp only
      have w1 := h1 ws hd
      have w2 := h2 ws hd
      by_cases hin : a ≤ ws ∧ ws < b
      · rw [if_pos ⟨w1.2 hin.1, w2.2 hin.2⟩, ← Int.add_mul]
        congr 1
        have := windows_apart hs hd hb hin.2
        unfold overlap
        split <;> omega
      · rw [if_neg (fun h => hin ⟨w1.1 h.1, w2.1 h.2⟩), Int.zero_add]
        congr 1
        unfold overlap
        by_cases hlt : ws < a
        · have := windows_apart hs hd ha hlt
          omega
        · omega
    · rw [if_neg hst]
      have : overlap start stop a b = 0 := by unfold overlap; omega
      simp [this]

theorem windows_period {start stop size nb d1 d2 : Int} (hs : 0 < size) :
    ((windows start stop size nb).map (fun e => if d1 < e.2.1 ∧ e.1 < d2 then e.2.2 else 0)).sum =
      overlap start stop (alignDown size (d1 + 1)) (alignUp size d2) * nb := by
  have h0 : start / size * size ≤ start := Int.ediv_mul_le _ (by omega)
  have h1 : start < (start / size + 1) * size := Int.lt_ediv_add_one_mul_self _ hs
  rw [Int.add_mul] at h1
  refine loop_period hs (alignDown_dvd _ _) (alignUp_dvd _ _) (fun w hw => ?_) (fun w hw => ?_) _ start stop _
    (Int.dvd_mul_left _ _) h0 (by omega) (by omega)
  · rw [alignDown_le_iff hs hw]; omega
  · rw [lt_alignUp_iff hs hw]

theorem windows_pos {start stop size nb : Int} (hs : 0 < size) (hnb : 0 < nb) :
    ∀ e ∈ windows start stop size nb, 0 < e.2.2 := by
  intro e he
  by_cases h : start < stop
  · obtain ⟨h1, h2, h3, h4⟩ := (windows_spec (start := start) (stop := stop) (nb := nb) hs).1 e he
    rw [h2]
    refine Int.mul_pos ?_ hnb
    have := h1.2
    unfold overlap
    omega
  · have : windows start stop size nb = [] := by
      unfold windows
      have : (stop - start).toNat = 0 := by omega
      rw [this]
      rfl
    rw [this] at he
    simp at he

/-! ## Sums over the rows of the table -/

/-- The total of the rows whose key satisfies `P`. -/
def tot (P : AKey → Bool) (t : Table) : Int := ((t.filter fun r => P r.1).map (·.2)).sum

theorem tot_cons (P : AKey → Bool) (r : ARow) (t : Table) : tot P (r :: t) = (if P r.1 then r.2 else 0) + tot P t := by
  unfold tot
  rw [List.filter_cons]
  by_cases h : P r.1 = true
  · rw [if_pos h, if_pos h]; rfl
  · rw [if_neg h, if_neg h]; omega

theorem tot_addRow (P : AKey → Bool) (k : AKey) (c : Int) : ∀ t : Table, tot P (addRow k c t) = tot P t + if P k then c else 0
  | [] => by
    rw [addRow, tot_cons]
    show _ + 0 = 0 + _
    rw [Int.add_zero, Int.zero_add]
  | (k', c') :: t => by
    unfold addRow
    by_cases h : k' = k
    · subst h
      rw [if_pos rfl, tot_cons, tot_cons]
      by_cases hp : P k' = true
      · simp only [hp, if_true]; omega
      · simp only [hp]; simp
    · rw [if_neg h, tot_cons, tot_cons, tot_addRow P k c t]
      omega

theorem tot_foldl (P : AKey → Bool) (f : (Int × Int × Int) → AKey) : ∀ (l : List (Int × Int × Int)) (t : Table),
    tot P (l.foldl (fun t e => addRow (f e) e.2.2 t) t) = tot P t + (l.map (fun e => if P (f e) then e.2.2 else 0)).sum
  | [], t => by simp
  | e :: l, t => by
    rw [List.foldl_cons, tot_foldl P f l, tot_addRow, List.map_cons, List.sum_cons, Int.add_assoc]

/-- The rows of a period whose user, project and type satisfy `Q`. -/
def inPeriod (d1 d2 : Int) (Q : String → String → String → Bool) (k : AKey) : Bool :=
  decide (d1 < k.wstop) && decide (k.wstart < d2) && Q k.user k.project k.ctype

theorem tot_update {start stop size nb d1 d2 : Int} (hs : 0 < size) (Q : String → String → String → Bool)
    (user project queue ctype : String) (t : Table) :
    tot (inPeriod d1 d2 Q) (updateAccounting start stop size user project queue ctype nb t) = tot (inPeriod d1 d2 Q) t +
      if Q user project ctype then overlap start stop (alignDown size (d1 + 1)) (alignUp size d2) * nb else 0 := by
  unfold updateAccounting
  rw [tot_foldl _ (fun e => ⟨e.1, e.2.1, user, project, queue, ctype⟩)]
  congr 1
  unfold inPeriod
  dsimp only
  by_cases hq : Q user project ctype = true
  · rw [if_pos hq, ← windows_period hs]
    congr 1
    refine List.map_congr_left fun e _ => ?_
    simp [hq]
  · rw [if_neg hq]
    refine sum_zero _ _ fun e _ => ?_
    simp [hq]

/-- What a job adds to the rows of a period. -/
def part (size d1 d2 : Int) (Q : String → String → String → Bool) (j : AJob) : Int :=
  (if Q j.user j.project "USED" then overlap j.start j.stop (alignDown size (d1 + 1)) (alignUp size d2) * (j.nb : Int) else 0) +
  if Q j.user j.project "ASKED" then
    overlap j.start (j.start + j.walltime) (alignDown size (d1 + 1)) (alignUp size d2) * (j.nb : Int) else 0

theorem tot_jobs {size d1 d2 : Int} (hs : 0 < size) (Q : String → String → String → Bool) : ∀ (l : List AJob) (t : Table),
    tot (inPeriod d1 d2 Q) (l.foldl (accountJob size) t) = tot (inPeriod d1 d2 Q) t + (l.map (part size d1 d2 Q)).sum
  | [], t => by simp
  | j :: l, t => by
    rw [List.foldl_cons, tot_jobs hs Q l, List.map_cons, List.sum_cons]
    unfold accountJob
    rw [tot_update hs, tot_update hs]
    unfold part
    omega

theorem tot_history {size d1 d2 : Int} (hs : 0 < size) (Q : String → String → String → Bool) {t : Table} {jobs log : List AJob}
    (h : History size t jobs log) : tot (inPeriod d1 d2 Q) t = (log.map (part size d1 d2 Q)).sum := by
  induction h with
  | start jobs h => rfl
  | evolve jobs' hist h hkeep ih => exact ih
  | @pass t jobs log hist ih =>
    rw [List.map_append, List.sum_append, ← ih]
    show tot _ ((jobs.filter AJob.selected).foldl (accountJob size) t) = _
    rw [tot_jobs hs]
    show _ = ((jobs.filter AJob.selected).map _).sum + _
    omega

/-! ## The rows are positive -/

theorem addRow_pos (k : AKey) (c : Int) (hc : 0 < c) : ∀ t : Table, (∀ r ∈ t, 0 < r.2) → ∀ r ∈ addRow k c t, 0 < r.2
  | [], _ => by simpa [addRow] using hc
  | (k', c') :: t, h => by
    have h1 : 0 < c' := h (k', c') (by simp)
    have h2 : ∀ r ∈ t, 0 < r.2 := fun r hr => h r (by simp [hr])
    unfold addRow
    by_cases he : k' = k
    · rw [if_pos he]
      intro r hr
      rcases List.mem_cons.1 hr with rfl | hr
      · dsimp only; omega
      · exact h2 r hr
    · rw [if_neg he]
      intro r hr
      rcases List.mem_cons.1 hr with rfl | hr
      · exact h1
      · exact addRow_pos k c hc t h2 r hr

theorem foldl_pos (f : (Int × Int × Int) → AKey) : ∀ (l : List (Int × Int × Int)) (t : Table), (∀ e ∈ l, 0 < e.2.2) →
    (∀ r ∈ t, 0 < r.2) → ∀ r ∈ l.foldl (fun t e => addRow (f e) e.2.2 t) t, 0 < r.2
  | [], _, _, h => h
  | e :: l, t, hl, h => by
    rw [List.foldl_cons]
    exact foldl_pos f l _ (fun e he => hl e (by simp [he])) (addRow_pos _ _ (hl e (by simp)) t h)

theorem jobs_pos {size : Int} (hs : 0 < size) : ∀ (l : List AJob) (t : Table), (∀ j ∈ l, 0 < j.nb) → (∀ r ∈ t, 0 < r.2) →
    ∀ r ∈ l.foldl (accountJob size) t, 0 < r.2
  | [], _, _, h => h
  | j :: l, t, hl, h => by
    rw [List.foldl_cons]
    have hj : (0 : Int) < j.nb := by have := hl j (by simp); omega
    exact jobs_pos hs l _ (fun e he => hl e (by simp [he]))
      (foldl_pos _ _ _ (windows_pos hs hj) (foldl_pos _ _ _ (windows_pos hs hj) h))

theorem history_pos {size : Int} (hs : 0 < size) {t : Table} {jobs log : List AJob} (h : History size t jobs log) :
    ∀ r ∈ t, 0 < r.2 := by
  induction h with
  | start jobs h => simp
  | evolve jobs' hist h hkeep ih => exact ih
  | @pass t jobs log hist ih =>
    exact jobs_pos hs _ _ (fun j hj => ((selected_iff j).1 (List.mem_filter.1 hj).2).2.2.2.2) ih

theorem sum_pos_of_mem (l : List ARow) (h : ∀ r ∈ l, 0 < r.2) (hne : l ≠ []) : 0 < (l.map (·.2)).sum := by
  induction l with
  | nil => exact absurd rfl hne
  | cons r l ih =>
    have h1 := h r (by simp)
    rw [List.map_cons, List.sum_cons]
    by_cases hl : l = []
    · subst hl; simpa using h1
    · have := ih (fun r hr => h r (by simp [hr])) hl
      omega

/-! ## Dictionaries -/

theorem lookup_put {α : Type} (k k' : String) (v : α) : ∀ d : List (String × α),
    (put k v d).lookup k' = if k' = k then some v else d.lookup k'
  | [] => by
    by_cases h : k' = k
    · subst h; simp [put]
    · simp [put, List.lookup_cons, beq_eq_false_iff_ne.2 h, h]
  | (k0, v0) :: d => by
    unfold put
    by_cases h0 : k0 = k
    · subst h0
      rw [if_pos rfl]
      by_cases h : k' = k0
      · subst h; simp
      · simp [List.lookup_cons, beq_eq_false_iff_ne.2 h, h]
    · rw [if_neg h0]
      by_cases h : k' = k0
      · subst h; simp [h0]
      · simp only [List.lookup_cons, beq_eq_false_iff_ne.2 h]
        exact lookup_put k k' v d

theorem put_keys {α : Type} (k : String) (v : α) : ∀ d : List (String × α), (d.map (·.1)).Nodup →
    ((put k v d).map (·.1)).Nodup ∧ ∀ x, x ∈ (put k v d).map (·.1) ↔ x = k ∨ x ∈ d.map (·.1)
  | [], _ => by simp [put]
  | (k0, v0) :: d, h => by
    rw [List.map_cons, List.nodup_cons] at h
    unfold put
    by_cases h0 : k0 = k
    · subst h0
      rw [if_pos rfl]
      refine ⟨List.nodup_cons.2 h, fun x => ?_⟩
      simp
    · rw [if_neg h0]
      obtain ⟨i1, i2⟩ := put_keys k v d h.2
      refine ⟨?_, fun x => ?_⟩
      · rw [List.map_cons, List.nodup_cons]
        refine ⟨fun hm => ?_, i1⟩
        rcases (i2 k0).1 hm with e | e
        · exact h0 e
        · exact h.1 e
      · rw [List.map_cons, List.mem_cons, i2 x, List.map_cons, List.mem_cons]
        constructor
        · rintro (e | e | e)
          · exact Or.inr (Or.inl e)
          · exact Or.inl e
          · exact Or.inr (Or.inr e)
        · rintro (e | e | e)
          · exact Or.inr (Or.inl e)
          · exact Or.inl e
          · exact Or.inr (Or.inr e)

theorem lookup_of_mem {α : Type} : ∀ (d : List (String × α)), (d.map (·.1)).Nodup → ∀ q ∈ d, d.lookup q.1 = some q.2
  | [], _, q, hq => by simp at hq
  | (k0, v0) :: d, h, q, hq => by
    rw [List.map_cons, List.nodup_cons] at h
    rcases List.mem_cons.1 hq with rfl | hq
    · simp
    · have hne : q.1 ≠ k0 := fun e => h.1 (e ▸ List.mem_map.2 ⟨q, hq, rfl⟩)
      rw [List.lookup_cons, beq_eq_false_iff_ne.2 hne]
      exact lookup_of_mem d h.2 q hq

theorem lookup_none_iff {α : Type} (k : String) : ∀ (d : List (String × α)), d.lookup k = none ↔ k ∉ d.map (·.1)
  | [] => by simp
  | (k0, v0) :: d => by
    by_cases h : k = k0
    · subst h; simp
    · rw [List.lookup_cons, beq_eq_false_iff_ne.2 h]
      simp only [List.map_cons, List.mem_cons, not_or]
      rw [lookup_none_iff k d]
      exact ⟨fun e => ⟨h, e⟩, fun e => e.2⟩

end Oar.Report
