import Verif.AcctCrash

/-!
# C122 : the command `oaraccounting`, interrupted or not
-/

namespace Oar.Accounting

/-! ## Specification -/

/-- The job is over, it has run, on a resource that is accounted. -/
structure Over (j : AJob) : Prop where
  state : j.state = "Terminated" ∨ j.state = "Error"
  ran : j.start ≤ j.stop
  started : 1 < j.start
  resources : 0 < j.nb

instance (j : AJob) : Decidable (Over j) :=
  decidable_of_iff ((j.state = "Terminated" ∨ j.state = "Error") ∧ j.start ≤ j.stop ∧ 1 < j.start ∧ 0 < j.nb)
    ⟨fun h => ⟨h.1, h.2.1, h.2.2.1, h.2.2.2⟩, fun h => ⟨h.1, h.2, h.3, h.4⟩⟩

/-- The consumption of the jobs that are over, in the window and for the user, project, queue and type of `k`. -/
def Consumed (size : Int) (jobs : List AJob) (k : AKey) : Int := ((jobs.filter (fun j => decide (Over j))).map (jobShare size k)).sum

/-! ## Not interrupted -/

/-- What the session sees after some statements, whatever is saved. -/
theorem exec_seen (s s' : Sess) (h : s.seen = s'.seen) (o : Op) : (o.exec s).seen = (o.exec s').seen := by
  cases o with
  | row k c =>
    unfold Op.exec
    dsimp only
    rw [h]
    split <;> rfl
  | mark => unfold Op.exec; dsimp only; rw [h]
  | commit => exact h

theorem rows_seen (user project queue ctype : String) : ∀ (l : List (Int × Int × Int)) (s : Sess),
    ((l.map (fun e => Op.row ⟨e.1, e.2.1, user, project, queue, ctype⟩ e.2.2)).foldl Op.exec s).seen =
      { s.seen with table := l.foldl (fun t e => addRow ⟨e.1, e.2.1, user, project, queue, ctype⟩ e.2.2 t) s.seen.table }
  | [], s => rfl
  | e :: l, s => by
    rw [List.map_cons, List.foldl_cons, rows_seen user project queue ctype l, List.foldl_cons]
    unfold Op.exec
    dsimp only
    split <;> rfl

theorem job_seen (size : Int) (j : AJob) (s : Sess) : ((opsJob size j).foldl Op.exec s).seen =
    ⟨accountJob size s.seen.table j, s.seen.jobs.map (fun j => { j with accounted := true })⟩ := by
  unfold opsJob opsRows
  rw [List.foldl_append, List.foldl_append, List.foldl_cons, List.foldl_nil]
  have h1 := rows_seen j.user j.project j.queue "USED" (windows j.start j.stop size j.nb) s
  have h2 := rows_seen j.user j.project j.queue "ASKED" (windows j.start (j.start + j.walltime) size j.nb)
    (List.foldl Op.exec s (List.map (fun e => Op.row ⟨e.1, e.2.1, j.user, j.project, j.queue, "USED"⟩ e.2.2) (windows j.start j.stop size j.nb)))
  show Books.mk _ _ = _
  rw [h2, h1]
  rfl

theorem jobs_seen (size : Int) : ∀ (l : List AJob) (s : Sess), ((l.flatMap (opsJob size)).foldl Op.exec s).seen =
    ⟨l.foldl (accountJob size) s.seen.table, if l.isEmpty then s.seen.jobs else s.seen.jobs.map (fun j => { j with accounted := true })⟩
  | [], s => rfl
  | j :: l, s => by
    rw [List.flatMap_cons, List.foldl_append, jobs_seen size l, job_seen]
    cases l with
    | nil => rfl
    | cons a l =>
      simp only [List.isEmpty_cons, Bool.false_eq_true, if_false, List.map_map]
      rfl

/-- **C122 (not interrupted).** A complete pass saves exactly what C20 describes. -/
theorem pass_complete (size : Int) (b : Books) : passSaved size (opsPass size b.jobs).length b =
    ⟨(checkAccounting size b.table b.jobs).1, (checkAccounting size b.table b.jobs).2.1⟩ := by
  unfold passSaved opsPass
  rw [List.take_length, List.foldl_append, List.foldl_cons, List.foldl_nil]
  show (List.foldl Op.exec ⟨b, b⟩ _).seen = _
  rw [jobs_seen]
  rfl

/-- **C122 (reinitialisation).** Whatever the accounts were, after `oaraccounting --reinitialize` then `oaraccounting` they are exactly
the consumption of the jobs that are over. -/
theorem reinitialize_exact (size now now' : Int) (hs : 0 < size) (b : Books) (o o' : Opts) (ho : o.reinitialize = true) (hv : o.version = false)
    (ho' : o' = ⟨false, none, false⟩) (k : AKey) :
    value (oaraccounting size now' o' (oaraccounting size now o b)).table k = Consumed size b.jobs k := by
  subst ho'
  have h1 : oaraccounting size now o b = deleteAll b := by
    unfold oaraccounting
    rw [hv, ho]
    rfl
  have h2 : oaraccounting size now' ⟨false, none, false⟩ (deleteAll b) = passSaved size (opsPass size (deleteAll b).jobs).length (deleteAll b) := rfl
  rw [h1, h2, pass_complete]
  show value (((deleteAll b).jobs.filter AJob.selected).foldl (accountJob size) []) k = _
  rw [foldl_account hs]
  show 0 + _ = _
  rw [Int.zero_add]
  unfold Consumed deleteAll
  dsimp only
  induction b.jobs with
  | nil => rfl
  | cons j l ih =>
    have hsel : ({ j with accounted := false } : AJob).selected = true ↔ Over j := by
      rw [selected_iff]
      exact ⟨fun ⟨_, a, b, c, d⟩ => ⟨a, b, c, d⟩, fun h => ⟨rfl, h.state, h.ran, h.started, h.resources⟩⟩
    rw [List.map_cons, List.filter_cons, List.filter_cons]
    by_cases h : Over j
    · rw [if_pos (hsel.2 h), if_pos (decide_eq_true h)]
      rw [List.map_cons, List.sum_cons, List.map_cons, List.sum_cons, ih]
      rfl
    · rw [if_neg (fun hc => h (hsel.1 hc)), if_neg (by simp [h])]
      exact ih

/-- The histories that follow a reinitialisation are those of C20. -/
theorem reinitialize_history (size now : Int) (b : Books) (o : Opts) (ho : o.reinitialize = true) (hv : o.version = false) (hk : (b.jobs.map AJob.id).Nodup) :
    History size (oaraccounting size now o b).table (oaraccounting size now o b).jobs [] := by
  have h1 : oaraccounting size now o b = deleteAll b := by
    unfold oaraccounting
    rw [hv, ho]
    rfl
  rw [h1]
  refine History.start _ ?_
  show ((b.jobs.map (fun j => { j with accounted := false })).map AJob.id).Nodup
  rw [List.map_map]
  exact hk

/-- **C122 (deletion).** `oaraccounting --delete-before D`, for a number of seconds which is not null, deletes exactly the windows that ended at
least D seconds ago, and changes nothing else. -/
theorem delete_before_partial (size now d : Int) (hd : d ≠ 0) (b : Books) :
    (oaraccounting size now ⟨false, some d, false⟩ b).jobs = b.jobs ∧
    (∀ r, r ∈ (oaraccounting size now ⟨false, some d, false⟩ b).table ↔ r ∈ b.table ∧ now - d < r.1.wstop) ∧
    (oaraccounting size now ⟨false, some d, false⟩ b).table.Sublist b.table := by
  have h1 : oaraccounting size now ⟨false, some d, false⟩ b = deleteBefore (now - d) b := by
    show (if d ≠ 0 then _ else _) = _
    rw [if_pos hd]
  rw [h1]
  refine ⟨rfl, fun r => ?_, List.filter_sublist⟩
  show r ∈ b.table.filter _ ↔ _
  rw [List.mem_filter]
  simp

/-- `--delete-before 0` deletes nothing: the accounts are updated instead. -/
theorem delete_zero_violated (size now : Int) (b : Books) : oaraccounting size now ⟨false, some 0, false⟩ b = oaraccounting size now ⟨false, none, false⟩ b := rfl

/-- `--version`, whatever the other options, changes nothing. -/
theorem version_inert (size now : Int) (r : Bool) (d : Option Int) (b : Books) : oaraccounting size now ⟨r, d, true⟩ b = b := rfl

/-! ## Interrupted -/

theorem lookup_addRow_isSome (k k' : AKey) (c : Int) : ∀ t : Table, (t.lookup k').isSome = true → ((addRow k c t).lookup k').isSome = true
  | [], h => by simp at h
  | (a, x) :: t, h => by
    unfold addRow
    by_cases ha : a = k
    · rw [if_pos ha]
      by_cases hk : k' = a
      · subst hk; simp
      · have hb : (k' == a) = false := by simpa using hk
        simp only [List.lookup_cons, hb] at h ⊢
        exact h
    · rw [if_neg ha]
      by_cases hk : k' = a
      · subst hk; simp
      · have hb : (k' == a) = false := by simpa using hk
        simp only [List.lookup_cons, hb] at h ⊢
        exact lookup_addRow_isSome k k' c t h

/-- The rows of the statements exist. -/
def AllKnown (t : Table) (l : List Op) : Prop := ∀ k c, Op.row k c ∈ l → (t.lookup k).isSome = true

theorem known_saved : ∀ (l : List Op) (s : Sess), AllKnown s.seen.table l → Op.commit ∉ l → (l.foldl Op.exec s).saved = s.saved
  | [], s, _, _ => rfl
  | o :: l, s, h, hc => by
    rw [List.foldl_cons]
    have hl : Op.commit ∉ l := fun hm => hc (List.mem_cons_of_mem _ hm)
    cases o with
    | row k c =>
      have hk := h k c (by simp)
      have he : Op.exec s (.row k c) = { s with seen := { s.seen with table := addRow k c s.seen.table } } := by
        show (if _ then _ else _) = _
        rw [if_pos hk]
      rw [he, known_saved l _ (fun k' c' hm => lookup_addRow_isSome k k' c _ (h k' c' (List.mem_cons_of_mem _ hm))) hl]
    | mark =>
      exact (known_saved l (Op.exec s .mark) (fun k' c' hm => h k' c' (List.mem_cons_of_mem _ hm)) hl).trans rfl
    | commit => exact absurd (by simp) hc

/-- **C122 (interrupted), partial.** When every window that the pass updates exists already, a pass interrupted anywhere before its end has saved
nothing: the next one accounts everything once. Missing: when a window is created, see `crash_twice_violated` and `crash_lost_violated`. -/
theorem crash_partial (size : Int) (n : Nat) (b : Books) (hknown : AllKnown b.table (opsPass size b.jobs)) (hn : n < (opsPass size b.jobs).length) :
    passSaved size n b = b := by
  unfold passSaved
  refine known_saved _ ⟨b, b⟩ (fun k c hm => hknown k c (List.mem_of_mem_take hm)) ?_
  have hlen : n ≤ ((b.jobs.filter AJob.selected).flatMap (opsJob size)).length := by
    unfold opsPass at hn
    rw [List.length_append] at hn
    simp at hn
    simpa using Nat.lt_succ_iff.1 hn
  unfold opsPass
  rw [List.take_append_of_le_length hlen]
  intro hm
  have hm := List.mem_of_mem_take hm
  obtain ⟨j, _, hj⟩ := List.mem_flatMap.1 hm
  unfold opsJob opsRows at hj
  simp at hj

/-- In every case, what an interrupted pass has saved is what the session saw after some of its statements. -/
theorem crash_prefix (size : Int) (n : Nat) (b : Books) : ∃ m ≤ n, passSaved size n b = (((opsPass size b.jobs).take m).foldl Op.exec ⟨b, b⟩).seen := by
  unfold passSaved
  generalize opsPass size b.jobs = l
  induction n with
  | zero => exact ⟨0, Nat.le_refl _, rfl⟩
  | succ n ih =>
    obtain ⟨m, hm, he⟩ := ih
    by_cases hn : n < l.length
    · have htake : l.take (n + 1) = l.take n ++ [l[n]] := by simp [List.take_append_getElem]
      have hfold : (l.take (n + 1)).foldl Op.exec ⟨b, b⟩ = Op.exec ((l.take n).foldl Op.exec ⟨b, b⟩) l[n] := by rw [htake, List.foldl_append]; rfl
      generalize hs : (l.take n).foldl Op.exec ⟨b, b⟩ = s at *
      have hcases : (Op.exec s l[n]).saved = s.saved ∨ (Op.exec s l[n]).saved = (Op.exec s l[n]).seen := by
        cases l[n] with
        | row k c =>
          unfold Op.exec
          dsimp only
          split
          · exact Or.inl rfl
          · exact Or.inr rfl
        | mark => exact Or.inl rfl
        | commit => exact Or.inr rfl
      rcases hcases with h | h
      · exact ⟨m, by omega, by rw [hfold, h]; exact he⟩
      · exact ⟨n + 1, Nat.le_refl _, by rw [hfold, h]⟩
    · have : l.take (n + 1) = l.take n := by rw [List.take_of_length_le (by omega), List.take_of_length_le (by omega)]
      exact ⟨m, by omega, by rw [this]; exact he⟩

/-! ## Where the property fails, examples -/

def jobA : AJob := ⟨1, "Terminated", 1000, 2000, 3600, "john", "p", "q", 4, false⟩
def jobB : AJob := ⟨2, "Error", 3000, 5000, 7200, "mary", "p", "q", 2, false⟩

/-- The pass is interrupted after the creation of the first window: the next pass counts this consumption a second time. -/
theorem crash_twice_violated :
    value (passSaved 86400 100 (passSaved 86400 1 ⟨[], [jobA]⟩)).table ⟨0, 86399, "john", "p", "q", "USED"⟩ = 8000 ∧
    Consumed 86400 [jobA] ⟨0, 86399, "john", "p", "q", "USED"⟩ = 4000 := by decide +kernel

/-- The pass is interrupted after the creation of the first window of the second job: its flag is saved (as that of all the jobs), and what it asked
is never accounted, by any later pass. -/
theorem crash_lost_violated :
    (passSaved 86400 4 ⟨[], [jobA, jobB]⟩).jobs = [{ jobA with accounted := true }, { jobB with accounted := true }] ∧
    value (passSaved 86400 4 ⟨[], [jobA, jobB]⟩).table ⟨0, 86399, "mary", "p", "q", "ASKED"⟩ = 0 ∧
    Consumed 86400 [jobA, jobB] ⟨0, 86399, "mary", "p", "q", "ASKED"⟩ = 14400 ∧
    ∀ n, passSaved 86400 n (passSaved 86400 4 ⟨[], [jobA, jobB]⟩) = passSaved 86400 4 ⟨[], [jobA, jobB]⟩ := by
  have h0 : passSaved 86400 4 ⟨[], [jobA, jobB]⟩ = ⟨[(⟨0, 86399, "john", "p", "q", "USED"⟩, 4000), (⟨0, 86399, "john", "p", "q", "ASKED"⟩, 14400),
    (⟨0, 86399, "mary", "p", "q", "USED"⟩, 4000)], [{ jobA with accounted := true }, { jobB with accounted := true }]⟩ := by decide +kernel
  rw [h0]
  refine ⟨rfl, by decide +kernel, by decide +kernel, fun n => ?_⟩
  cases n with
  | zero => rfl
  | succ n => cases n <;> rfl

/-- A pass with two jobs, a deletion, and a reinitialisation that repairs the books of `crash_twice_violated`. -/
theorem accounts_example :
    (oaraccounting 86400 0 ⟨false, none, false⟩ ⟨[], [jobA, jobB]⟩).table.map (fun r => (r.1.user, r.1.ctype, r.2)) =
      [("john", "USED", 4000), ("john", "ASKED", 14400), ("mary", "USED", 4000), ("mary", "ASKED", 14400)] ∧
    (oaraccounting 86400 200000 ⟨false, some 86400, false⟩ ⟨[(⟨0, 86399, "john", "p", "q", "USED"⟩, 7), (⟨86400, 172799, "john", "p", "q", "USED"⟩, 8)], []⟩).table =
      [(⟨86400, 172799, "john", "p", "q", "USED"⟩, 8)] ∧
    value (oaraccounting 86400 0 ⟨false, none, false⟩ (oaraccounting 86400 0 ⟨true, none, false⟩ (passSaved 86400 100 (passSaved 86400 1 ⟨[], [jobA]⟩)))).table
      ⟨0, 86399, "john", "p", "q", "USED"⟩ = 4000 ∧
    AllKnown [(⟨0, 86399, "john", "p", "q", "USED"⟩, 7), (⟨0, 86399, "john", "p", "q", "ASKED"⟩, 8)] (opsPass 86400 [jobA]) ∧ 3 < (opsPass 86400 [jobA]).length := by
  refine ⟨by decide +kernel, by decide +kernel, by decide +kernel, ?_, by decide +kernel⟩
  have h : opsPass 86400 [jobA] = [.row ⟨0, 86399, "john", "p", "q", "USED"⟩ 4000, .row ⟨0, 86399, "john", "p", "q", "ASKED"⟩ 14400, .mark, .commit] := by decide +kernel
  rw [h]
  intro k c hm
  simp at hm
  rcases hm with ⟨rfl, _⟩ | ⟨rfl, _⟩ <;> decide

end Oar.Accounting
