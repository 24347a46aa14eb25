import Verif.Accounting
import Mathlib.Tactic.Ring
import Mathlib.Tactic.Linarith

/-!
# C19, C20 : accounting
-/

namespace Oar.Accounting

/-! ## Specification -/

/-- Number of seconds common to `[a, b)` and `[c, d)`. -/
def overlap (a b c d : Int) : Int := max 0 (min b d - max a c)

/-- `[a, b]` is an accounting window of the given size. -/
def IsWindow (size a b : Int) : Prop := size ∣ a ∧ b = a + size - 1

instance (size a b : Int) : Decidable (IsWindow size a b) := by unfold IsWindow; infer_instance

/-- The consumption recorded for a key. -/
def value (t : Table) (k : AKey) : Int := (t.lookup k).getD 0

/-- What is recorded for a key by a run `[start, stop)` of `nb` resources. -/
def share (size start stop : Int) (user project queue ctype : String) (nb : Int) (k : AKey) : Int :=
  if k.user = user ∧ k.project = project ∧ k.queue = queue ∧ k.ctype = ctype ∧ IsWindow size k.wstart k.wstop then
    overlap k.wstart (k.wstop + 1) start stop * nb
  else 0

/-! ## Windows -/

theorem windows_apart {size a b : Int} (hs : 0 < size) (ha : size ∣ a) (hb : size ∣ b) (hlt : a < b) : a + size ≤ b := by
  obtain ⟨k, rfl⟩ := ha
  obtain ⟨j, rfl⟩ := hb
  have : k < j := by
    by_contra h
    have : size * j ≤ size * k := Int.mul_le_mul_of_nonneg_left (by omega) (by omega)
    omega
  have : size * (k + 1) ≤ size * j := Int.mul_le_mul_of_nonneg_left (by omega) (by omega)
  rw [Int.mul_add] at this
  omega

/-- The invariant of the loop: what is recorded in each window. -/
theorem windowsLoop_sum {size nb : Int} (hs : 0 < size) : ∀ (fuel : Nat) (start stop ws : Int), size ∣ ws → ws ≤ start →
    start ≤ ws + size - 1 → stop - start ≤ fuel →
    (∀ e ∈ windowsLoop size nb fuel start stop ws (ws + size - 1), size ∣ e.1 ∧ e.2.1 = e.1 + size - 1 ∧ ws ≤ e.1 ∧
      e.2.2 = overlap e.1 (e.2.1 + 1) start stop * nb ∧ e.1 < stop) ∧
    (windowsLoop size nb fuel start stop ws (ws + size - 1)).Pairwise (fun e e' => e.2.1 < e'.1) ∧
    ((windowsLoop size nb fuel start stop ws (ws + size - 1)).map (fun e => e.2.2)).sum = max 0 (stop - start) * nb ∧
    (∀ u, start ≤ u → u < stop → ∃ e ∈ windowsLoop size nb fuel start stop ws (ws + size - 1), e.1 ≤ u ∧ u ≤ e.2.1)
  | 0, start, stop, ws, _, _, _, hf => by
    have h0 : max 0 (stop - start) = 0 := by omega
    refine ⟨by simp [windowsLoop], by simp [windowsLoop], by simp [windowsLoop, h0], fun u h1 h2 => ?_⟩
    omega
  | fuel + 1, start, stop, ws, hd, h1, h2, hf => by
    unfold windowsLoop
    by_cases hst : stop > start
    · rw [if_pos hst]
      dsimp only
      have hd' : size ∣ (ws + size - 1 + 1) := by
        have : ws + size - 1 + 1 = ws + size := by omega
        rw [this]; exact Int.dvd_add hd (Int.dvd_refl _)
      have he : ws + size - 1 + size = (ws + size - 1 + 1) + size - 1 := by omega
      rw [he]
      obtain ⟨i1, i2, i3, i4⟩ := windowsLoop_sum (nb := nb) hs fuel (ws + size - 1 + 1) stop (ws + size - 1 + 1) hd'
        (by omega) (by omega) (by omega)
      have hc : (if stop ≤ ws + size - 1 then stop - start else ws + size - 1 - start + 1) =
          overlap ws (ws + size - 1 + 1) start stop := by
        unfold overlap; split <;> omega
      refine ⟨?_, ?_, ?_, ?_⟩
      · intro e hmem
        rcases List.mem_cons.1 hmem with rfl | hmem
        · exact ⟨hd, rfl, by omega, by rw [hc], by dsimp only; omega⟩
        · obtain ⟨j1, j2, j3, j4, j5⟩ := i1 e hmem
          refine ⟨j1, j2, by omega, ?_, j5⟩
          rw [j4]
          congr 1
          unfold overlap
          omega
      · refine List.pairwise_cons.2 ⟨?_, i2⟩
        intro e hmem
        obtain ⟨j1, j2, j3, j4⟩ := i1 e hmem
        dsimp only
        omega
      · rw [List.map_cons, List.sum_cons, i3, hc, ← Int.add_mul]
        congr 1
        unfold overlap
        omega
      · intro u hu1 hu2
        by_cases hu : u ≤ ws + size - 1
        · exact ⟨_, List.mem_cons_self .., by dsimp only; omega, hu⟩
        · obtain ⟨e, he1, he2⟩ := i4 u (by omega) hu2
          exact ⟨e, List.mem_cons_of_mem _ he1, he2⟩
    · rw [if_neg hst]
      have h0 : max 0 (stop - start) = 0 := by omega
      exact ⟨by simp, by simp, by simp [h0], fun u h1 h2 => by omega⟩

theorem windows_spec {start stop size nb : Int} (hs : 0 < size) :
    (∀ e ∈ windows start stop size nb, IsWindow size e.1 e.2.1 ∧ e.2.2 = overlap e.1 (e.2.1 + 1) start stop * nb ∧
      e.1 < stop ∧ start ≤ e.2.1) ∧
    (windows start stop size nb).Pairwise (fun e e' => e.2.1 < e'.1) ∧
    ((windows start stop size nb).map (fun e => e.2.2)).sum = max 0 (stop - start) * nb ∧
    (∀ u, start ≤ u → u < stop → ∃ e ∈ windows start stop size nb, e.1 ≤ u ∧ u ≤ e.2.1) := by
  have h0 : start / size * size ≤ start := Int.ediv_mul_le _ (by omega)
  have h1 : start < (start / size + 1) * size := Int.lt_ediv_add_one_mul_self _ hs
  rw [Int.add_mul] at h1
  obtain ⟨i1, i2, i3, i4⟩ := windowsLoop_sum (nb := nb) hs (stop - start).toNat start stop (start / size * size)
    (Int.dvd_mul_left _ _) h0 (by omega) (by omega)
  refine ⟨fun e he => ?_, i2, i3, i4⟩
  obtain ⟨j1, j2, j3, j4, j5⟩ := i1 e he
  exact ⟨⟨j1, j2⟩, j4, j5, by omega⟩

/-- **C19.** The windows visited by an update for the run `[start, stop)` of `nb` resources: aligned windows of the
configured size, in order and disjoint, that cover the run; each receives the seconds of the run it contains times `nb`,
hence at most its length times `nb`; and the total is `(stop - start) * nb`. -/
theorem consumption_conserved (start stop size nb : Int) (hs : 0 < size) (hnb : 0 ≤ nb) (hle : start ≤ stop) :
    ((windows start stop size nb).map (fun e => e.2.2)).sum = (stop - start) * nb ∧
    (∀ e ∈ windows start stop size nb, IsWindow size e.1 e.2.1 ∧ e.2.2 = overlap e.1 (e.2.1 + 1) start stop * nb ∧
      0 ≤ e.2.2 ∧ e.2.2 ≤ size * nb) ∧
    (windows start stop size nb).Pairwise (fun e e' => e.2.1 < e'.1) ∧
    (∀ u, start ≤ u → u < stop → ∃ e ∈ windows start stop size nb, e.1 ≤ u ∧ u ≤ e.2.1) := by
  obtain ⟨h1, h2, h3, h4⟩ := windows_spec (start := start) (stop := stop) (nb := nb) hs
  refine ⟨by rw [h3]; congr 1; omega, fun e he => ?_, h2, h4⟩
  obtain ⟨k1, k2, _⟩ := h1 e he
  have hb := k1.2
  refine ⟨k1, k2, ?_, ?_⟩
  · rw [k2]; exact Int.mul_nonneg (by unfold overlap; omega) hnb
  · rw [k2]; exact Int.mul_le_mul_of_nonneg_right (by unfold overlap; omega) hnb

theorem value_addRow (k k' : AKey) (c : Int) : ∀ t : Table, value (addRow k c t) k' = value t k' + if k' = k then c else 0
  | [] => by
    by_cases h : k' = k
    · subst h; simp [addRow, value]
    · simp [addRow, value, List.lookup_cons, beq_eq_false_iff_ne.2 h, h]
  | (k0, c0) :: t => by
    have ih := value_addRow k k' c t
    unfold addRow
    by_cases h0 : k0 = k
    · subst h0
      rw [if_pos rfl]
      by_cases h : k' = k0
      · subst h; simp [value]; omega
      · simp [value, List.lookup_cons, beq_eq_false_iff_ne.2 h, h]
    · rw [if_neg h0]
      by_cases h : k' = k0
      · subst h; simp [value, h0]
      · simp only [value, List.lookup_cons, beq_eq_false_iff_ne.2 h] at ih ⊢
        exact ih

theorem value_foldl (f : (Int × Int × Int) → AKey) (k : AKey) : ∀ (l : List (Int × Int × Int)) (t : Table),
    value (l.foldl (fun t e => addRow (f e) e.2.2 t) t) k = value t k + (l.map (fun e => if k = f e then e.2.2 else 0)).sum
  | [], t => by simp
  | e :: l, t => by
    rw [List.foldl_cons, value_foldl f k l, value_addRow, List.map_cons, List.sum_cons, Int.add_assoc]

theorem sum_zero {α : Type} (f : α → Int) : ∀ l : List α, (∀ e ∈ l, f e = 0) → (l.map f).sum = 0
  | [], _ => rfl
  | a :: l, h => by
    rw [List.map_cons, List.sum_cons, h a (by simp), sum_zero f l (fun e he => h e (by simp [he]))]
    rfl

theorem sum_unique {α : Type} (f : α → Int) (l : List α) (a : α) (r : List α) (h : ∀ e ∈ l ++ r, f e = 0) :
    ((l ++ a :: r).map f).sum = f a := by
  rw [List.map_append, List.sum_append, List.map_cons, List.sum_cons, sum_zero f l (fun e he => h e (by simp [he])),
    sum_zero f r (fun e he => h e (by simp [he]))]
  omega

/-- **C19.** The table after an update: every window of the user, project, queue and type gains exactly the seconds of
the run inside this window times the number of resources; nothing else changes. -/
theorem accounting_exact (start stop size nb : Int) (user project queue ctype : String) (t : Table) (k : AKey)
    (hs : 0 < size) :
    value (updateAccounting start stop size user project queue ctype nb t) k =
      value t k + share size start stop user project queue ctype nb k := by
  obtain ⟨h1, h2, h3, h4⟩ := windows_spec (start := start) (stop := stop) (nb := nb) hs
  unfold updateAccounting
  rw [value_foldl (fun e => ⟨e.1, e.2.1, user, project, queue, ctype⟩)]
  congr 1
  unfold share
  by_cases hk : k.user = user ∧ k.project = project ∧ k.queue = queue ∧ k.ctype = ctype ∧ IsWindow size k.wstart k.wstop
  · rw [if_pos hk]
    obtain ⟨g1, g2, g3, g4, g5⟩ := hk
    have hkey : ∀ e : Int × Int × Int, k = ⟨e.1, e.2.1, user, project, queue, ctype⟩ ↔ k.wstart = e.1 ∧ k.wstop = e.2.1 := by
      intro e
      cases k
      simp_all
    by_cases hex : ∃ e ∈ windows start stop size nb, k.wstart = e.1
    · obtain ⟨e, he, he1⟩ := hex
      obtain ⟨l, r, hl⟩ := List.append_of_mem he
      rw [hl] at h2 ⊢
      have hp := List.pairwise_append.1 h2
      have hpc := List.pairwise_cons.1 hp.2.1
      rw [hl] at h1
      have hes := h1 e (by simp)
      rw [sum_unique _ l e r]
      · rw [if_pos ((hkey e).2 ⟨he1, by rw [hes.1.2, g5.2, he1]⟩), hes.2.1, he1, g5.2, hes.1.2, he1]
      · intro e' he'
        rw [if_neg]
        rw [hkey]
        rintro ⟨q1, _⟩
        rcases List.mem_append.1 he' with hm | hm
        · have := hp.2.2 e' hm e (by simp)
          have := (h1 e' (by simp [hm])).1.2
          omega
        · have := hpc.1 e' hm
          have := hes.1.2
          omega
    · have hov : overlap k.wstart (k.wstop + 1) start stop = 0 := by
        by_contra hne
        apply hex
        have h5 : max k.wstart start < min (k.wstop + 1) stop := by unfold overlap at hne; omega
        obtain ⟨e, he, he1, he2⟩ := h4 (max k.wstart start) (by omega) (by omega)
        refine ⟨e, he, ?_⟩
        have hes := h1 e he
        by_contra hne2
        rcases lt_or_gt_of_ne hne2 with h6 | h6
        · have := windows_apart hs g5.1 hes.1.1 h6
          have := g5.2
          omega
        · have := windows_apart hs hes.1.1 g5.1 h6
          have := hes.1.2
          omega
      rw [hov, sum_zero]
      · simp
      · intro e he
        rw [if_neg]
        rw [hkey]
        exact fun h => hex ⟨e, he, h.1⟩
  · rw [if_neg hk, sum_zero]
    intro e he
    rw [if_neg]
    rintro rfl
    exact hk ⟨rfl, rfl, rfl, rfl, (h1 e he).1⟩

-- a run of 3 resources over two windows of one day
example : windows 86390 86420 86400 3 = [(0, 86399, 30), (86400, 172799, 60)] := by decide
example : value (updateAccounting 86390 86420 86400 "u" "p" "q" "USED" 3 []) ⟨0, 86399, "u", "p", "q", "USED"⟩ = 30 := by
  decide

/-! ## C20 : each job accounted exactly once -/

/-- The contribution of a job to a key: its run as USED and its walltime as ASKED. -/
def jobShare (size : Int) (k : AKey) (j : AJob) : Int :=
  share size j.start j.stop j.user j.project j.queue "USED" j.nb k +
  share size j.start (j.start + j.walltime) j.user j.project j.queue "ASKED" j.nb k

/-- What happens between two accounting passes: the jobs evolve (their accounting flag does not) and new jobs, not yet
accounted, are submitted. -/
structure Evolves (jobs jobs' : List AJob) : Prop where
  nodup : (jobs'.map AJob.id).Nodup
  flag : ∀ j ∈ jobs, ∀ j' ∈ jobs', j.id = j'.id → j'.accounted = j.accounted

/-- A history: accounting passes (`check_accounting_update`) separated by arbitrary evolutions. `log` lists the jobs
accounted, as they were at that time, most recent pass first. -/
inductive History (size : Int) : Table → List AJob → List AJob → Prop
  | start (jobs : List AJob) (h : (jobs.map AJob.id).Nodup) : History size [] jobs []
  | evolve {t jobs log} (jobs' : List AJob) (hist : History size t jobs log) (h : Evolves jobs jobs')
      (hkeep : ∀ j ∈ log, ∀ j' ∈ jobs', j'.id = j.id → j'.accounted = true) : History size t jobs' log
  | pass {t jobs log} (hist : History size t jobs log) :
      History size (checkAccounting size t jobs).1 (checkAccounting size t jobs).2.1
        ((checkAccounting size t jobs).2.2 ++ log)

theorem accountJob_value {size : Int} (hs : 0 < size) (t : Table) (j : AJob) (k : AKey) :
    value (accountJob size t j) k = value t k + jobShare size k j := by
  unfold accountJob jobShare
  rw [accounting_exact _ _ _ _ _ _ _ _ _ _ hs, accounting_exact _ _ _ _ _ _ _ _ _ _ hs]
  omega

theorem foldl_account {size : Int} (hs : 0 < size) (k : AKey) : ∀ (l : List AJob) (t : Table),
    value (l.foldl (accountJob size) t) k = value t k + (l.map (jobShare size k)).sum
  | [], t => by simp
  | j :: l, t => by
    rw [List.foldl_cons, foldl_account hs k l, accountJob_value hs, List.map_cons, List.sum_cons]; omega

theorem selected_iff (j : AJob) : j.selected = true ↔ j.accounted = false ∧ (j.state = "Terminated" ∨ j.state = "Error") ∧
    j.start ≤ j.stop ∧ 1 < j.start ∧ 0 < j.nb := by
  simp [AJob.selected, and_assoc]

theorem checkAccounting_ids (size : Int) (t : Table) (jobs : List AJob) :
    (checkAccounting size t jobs).2.1.map AJob.id = jobs.map AJob.id := by
  unfold checkAccounting
  dsimp only
  split
  · rfl
  · rw [List.map_map]; rfl

theorem history_inv {size : Int} (hs : 0 < size) {t : Table} {jobs log : List AJob} (h : History size t jobs log) :
    (jobs.map AJob.id).Nodup ∧ (log.map AJob.id).Nodup ∧
    (∀ j ∈ log, ∀ j' ∈ jobs, j'.id = j.id → j'.accounted = true) ∧
    ∀ k, value t k = (log.map (jobShare size k)).sum := by
  induction h with
  | start jobs h => exact ⟨h, by simp, by simp, fun k => rfl⟩
  | evolve jobs' hist h hkeep ih => exact ⟨h.nodup, ih.2.1, hkeep, ih.2.2.2⟩
  | @pass t jobs log hist ih =>
    obtain ⟨i1, i2, i3, i4⟩ := ih
    refine ⟨by rw [checkAccounting_ids]; exact i1, ?_, ?_, ?_⟩
    · rw [List.map_append]
      refine List.nodup_append.2 ⟨?_, i2, ?_⟩
      · exact i1.sublist (List.Sublist.map _ (List.filter_sublist))
      · intro a ha b hb
        obtain ⟨x, hx, rfl⟩ := List.mem_map.1 ha
        obtain ⟨y, hy, rfl⟩ := List.mem_map.1 hb
        have hx' := List.mem_filter.1 hx
        intro e
        have := i3 y hy x hx'.1 e
        rw [((selected_iff x).1 hx'.2).1] at this
        simp at this
    · intro j hj j' hj' e
      by_cases hsel : (jobs.filter AJob.selected).isEmpty = true
      · have h1 : (checkAccounting size t jobs).2.1 = jobs := by unfold checkAccounting; dsimp only; rw [if_pos hsel]
        rw [h1] at hj'
        rcases List.mem_append.1 hj with hj | hj
        · have : (checkAccounting size t jobs).2.2 = [] := List.isEmpty_iff.1 hsel
          rw [this] at hj; simp at hj
        · exact i3 j hj j' hj' e
      · have h1 : (checkAccounting size t jobs).2.1 = jobs.map (fun j => { j with accounted := true }) := by
          unfold checkAccounting; dsimp only; rw [if_neg hsel]
        rw [h1] at hj'
        obtain ⟨y, _, rfl⟩ := List.mem_map.1 hj'
        rfl
    · intro k
      rw [List.map_append, List.sum_append, ← i4 k]
      show value ((jobs.filter AJob.selected).foldl (accountJob size) t) k = _
      rw [foldl_account hs]
      show _ = ((jobs.filter AJob.selected).map _).sum + _
      omega

/-- **C20, partial.** In every history, no job is accounted twice, and the accounting table is exactly the sum of the
contributions of the jobs accounted; every job which is finished and not marked at the time of a pass is accounted by it.
Missing: a job still running during a pass may be marked without being accounted (`accounted_violated`). -/
theorem accounted_at_most_once_partial (size : Int) (hs : 0 < size) (t : Table) (jobs log : List AJob)
    (h : History size t jobs log) :
    (log.map AJob.id).Nodup ∧ (∀ k, value t k = (log.map (jobShare size k)).sum) ∧
    ∀ j ∈ jobs, j.accounted = false → (j.state = "Terminated" ∨ j.state = "Error") → j.start ≤ j.stop → 1 < j.start →
      0 < j.nb → j ∈ (checkAccounting size t jobs).2.2 := by
  obtain ⟨_, h2, _, h4⟩ := history_inv hs h
  refine ⟨h2, h4, fun j hj h1 h2 h3 h4 h5 => ?_⟩
  exact List.mem_filter.2 ⟨hj, (selected_iff j).2 ⟨h1, h2, h3, h4, h5⟩⟩

def jobDone : AJob := ⟨1, "Terminated", 1000, 2000, 3600, "u", "p", "q", 4, false⟩
def jobRun : AJob := ⟨2, "Running", 1500, 0, 3600, "u", "p", "q", 2, false⟩
def jobRunEnded : AJob := { jobRun with state := "Terminated", stop := 2500, accounted := true }

/-- **C20, violated.** A job is running during a pass that accounts another job; it ends; it is not accounted by the
following pass, nor by any later one as long as its flag does not change. -/
theorem accounted_violated :
    (checkAccounting 86400 [] [jobDone, jobRun]).2.2 = [jobDone] ∧
    (checkAccounting 86400 [] [jobDone, jobRun]).2.1 = [{ jobDone with accounted := true }, { jobRun with accounted := true }] ∧
    Evolves (checkAccounting 86400 [] [jobDone, jobRun]).2.1 [{ jobDone with accounted := true }, jobRunEnded] ∧
    ∀ t, (checkAccounting 86400 t [{ jobDone with accounted := true }, jobRunEnded]).2.2 = [] := by
  refine ⟨by decide, by decide, ⟨by decide, ?_⟩, fun t => rfl⟩
  intro j hj j' hj' e
  have h1 : ∀ j ∈ (checkAccounting 86400 [] [jobDone, jobRun]).2.1, j.accounted = true := by decide
  have h2 : ∀ j ∈ [{ jobDone with accounted := true }, jobRunEnded], j.accounted = true := by decide
  rw [h1 j hj, h2 j' hj']

-- a history with a pass
example : History 86400 (checkAccounting 86400 [] [jobDone, jobRun]).1 (checkAccounting 86400 [] [jobDone, jobRun]).2.1
    ((checkAccounting 86400 [] [jobDone, jobRun]).2.2 ++ []) := .pass (.start _ (by decide))

end Oar.Accounting
