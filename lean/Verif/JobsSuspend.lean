import Verif.JobsProps

/-!
# C41: the suspended duration of a job
-/

namespace Oar.Jobs

/-- Second `x` belongs to a suspension (or resumption) interval of the log `l` looked at on date `now`. -/
def suspendedAt (l : List LogRow) (now : Int) (x : Nat) : Bool :=
  l.any (fun r => (r.state == "Suspended" || r.state == "Resuming") &&
    decide (r.start ≤ (x : Int) ∧ (x : Int) < if r.stop = 0 then now else r.stop))

theorem countP_interval (a b : Int) : ∀ n : Nat, (((List.range n).countP (fun x : Nat => decide (a ≤ (x : Int) ∧ (x : Int) < b)) : Nat) : Int) =
    max 0 (min b n - max a 0)
  | 0 => by simp; omega
  | n + 1 => by
    rw [List.range_succ, List.countP_append]
    have ih := countP_interval a b n
    by_cases h : a ≤ (n : Int) ∧ (n : Int) < b
    · rw [List.countP_singleton, if_pos (by simpa using h)]
      omega
    · rw [List.countP_singleton, if_neg (by simpa using h)]
      omega

theorem countP_or {p q : Nat → Bool} : ∀ (l : List Nat), (∀ x ∈ l, ¬ (p x = true ∧ q x = true)) →
    l.countP (fun x => p x || q x) = l.countP p + l.countP q
  | [], _ => rfl
  | x :: xs, h => by
    have ih := countP_or xs (fun y hy => h y (by simp [hy]))
    have hx := h x (by simp)
    simp only [List.countP_cons]
    rw [ih]
    cases hp : p x <;> cases hq : q x <;> simp_all <;> omega

theorem Timeline.start_le {cur : String} {t : Int} : ∀ {l : List LogRow} {r : LogRow}, Timeline cur t (r :: l) →
    ∀ x ∈ r :: l, r.start ≤ x.start
  | [], r, _, x, hx => by
    have : x = r := by simpa using hx
    rw [this]; exact Int.le_refl _
  | r' :: rest, r, ⟨h1, _, h3, _, h5⟩, x, hx => by
    rcases List.mem_cons.1 hx with hx | hx
    · rw [hx]; exact Int.le_refl _
    · have := Timeline.start_le h5 x hx
      omega

theorem suspended_count {cur : String} {t now : Int} (hle : t ≤ now) : ∀ {l : List LogRow}, Timeline cur t l →
    ((l.filter (fun r => r.state == "Suspended" || r.state == "Resuming")).map (resTime now)).sum =
      (((List.range now.toNat).countP (suspendedAt l now) : Nat) : Int)
  | [], h => h.elim
  | [r], ⟨h1, _, h3, h4⟩ => by
    by_cases hs : (r.state == "Suspended" || r.state == "Resuming") = true
    · have e : (fun x : Nat => decide (r.start ≤ (x : Int) ∧ (x : Int) < now)) = suspendedAt [r] now := by
        funext x
        simp [suspendedAt, h1, hs]
      have := countP_interval r.start now now.toNat
      rw [e] at this
      rw [List.filter_cons_of_pos (p := fun r : LogRow => r.state == "Suspended" || r.state == "Resuming") hs, this]
      simp only [List.filter_nil, List.map_cons, List.map_nil, List.sum_cons, List.sum_nil, resTime, h1, if_true]
      split <;> omega
    · have e : suspendedAt [r] now = fun _ => false := by
        funext x
        simp [suspendedAt, hs]
      rw [List.filter_cons_of_neg (p := fun r : LogRow => r.state == "Suspended" || r.state == "Resuming") hs, e]
      simp
  | r :: r' :: rest, ⟨h1, h2, h3, h4, h5⟩ => by
    have ih := suspended_count hle h5
    have hstop : r.stop ≠ 0 := by omega
    have hlt : r.stop ≤ now := by
      have key : ∀ {l : List LogRow} {r : LogRow}, Timeline cur t (r :: l) → r.start ≤ now := by
        intro l
        induction l with
        | nil => intro r h; have := h.2.2.2; omega
        | cons a l ih => intro r h; have := ih h.2.2.2.2; have := h.1; have := h.2.2.1; omega
      have := key h5
      omega
    by_cases hs : (r.state == "Suspended" || r.state == "Resuming") = true
    · have e : suspendedAt (r :: r' :: rest) now =
          fun x : Nat => decide (r.start ≤ (x : Int) ∧ (x : Int) < r.stop) || suspendedAt (r' :: rest) now x := by
        funext x
        unfold suspendedAt
        rw [List.any_cons, hs, Bool.true_and, if_neg hstop]
      rw [e, countP_or, List.filter_cons_of_pos (p := fun r : LogRow => r.state == "Suspended" || r.state == "Resuming") hs, List.map_cons, List.sum_cons, ih]
      · have := countP_interval r.start r.stop now.toNat
        rw [Int.natCast_add, this]
        have : resTime now r = r.stop - r.start := by
          simp only [resTime, if_neg hstop]
          split <;> omega
        omega
      · rintro x _ ⟨hx1, hx2⟩
        have hx1' := of_decide_eq_true hx1
        unfold suspendedAt at hx2
        obtain ⟨y, hy, hy2⟩ := List.any_eq_true.1 hx2
        have hy3 := of_decide_eq_true ((Bool.and_eq_true _ _ ▸ hy2).2)
        have := Timeline.start_le h5 y hy
        omega
    · have e : suspendedAt (r :: r' :: rest) now = suspendedAt (r' :: rest) now := by
        funext x
        unfold suspendedAt
        rw [List.any_cons]
        simp only [Bool.not_eq_true] at hs
        rw [hs, Bool.false_and, Bool.false_or]
      rw [e, List.filter_cons_of_neg (p := fun r : LogRow => r.state == "Suspended" || r.state == "Resuming") hs, ih]

/-- For every history, the suspended duration reported for a job on date `now` is the number of seconds before `now` at which
the job was Suspended or Resuming according to its log. -/
theorem suspendedSum_exact {t now : Int} {db : DB} (h : History t db) (hle : t ≤ now) {j : JobRow} (hj : j ∈ db.jobs) :
    suspendedSum db j.id now = ((((List.range now.toNat).filter (suspendedAt (db.logOf j.id) now)).length : Nat) : Int) := by
  have := suspended_count hle (log_timeline h j hj)
  rw [← List.countP_eq_length_filter, ← this]
  unfold suspendedSum DB.logOf
  rw [List.filter_filter]
  congr 3
  funext r
  rw [Bool.and_comm]

/-- Suspended from 10 to 15 and from 20 on, looked at on date 27: 12 seconds. -/
example : suspendedSum ⟨[], [⟨1, "Running", 5, 10⟩, ⟨1, "Suspended", 10, 14⟩, ⟨1, "Resuming", 14, 15⟩, ⟨1, "Running", 15, 20⟩,
    ⟨1, "Suspended", 20, 0⟩], [], [], []⟩ 1 27 = 12 := by decide

/-- A reachable database in which a job has been suspended. -/
def exSusp : DB := setJobState (setJobState exDb1 20 1 "Suspended") 25 1 "Running"

theorem exSusp_history : History 25 exSusp := by
  have h0 : History 10 exDb0 :=
    .step 10 10 _ _ (.start 10 (by decide)) (by decide) (.submit _ exJob (by simp) rfl (by decide))
  have g : ∀ (t now : Int) (db : DB) (st : String), History t db → t ≤ now → st ∈ allStates →
      (db.jobs.map JobRow.state).contains "Finishing" = false → History now (setJobState db now 1 st) := by
    intro t now db st h hle hst hn
    refine .step t now _ _ h hle (.setState _ 1 st hst ?_)
    intro j hj _ hf
    exfalso
    have : (db.jobs.map JobRow.state).contains "Finishing" = true := by
      rw [List.contains_iff_mem]
      exact List.mem_map.2 ⟨j, hj, hf⟩
    rw [hn] at this
    exact absurd this (by decide)
  have h1 := g 10 12 exDb0 "Running" h0 (by decide) (by decide) (by decide)
  have h2 := g 12 20 _ "Suspended" h1 (by decide) (by decide) (by decide)
  exact g 20 25 _ "Running" h2 (by decide) (by decide) (by decide)

example : suspendedSum exSusp 1 40 = 5 := by decide

end Oar.Jobs
