import Verif.RoundProps
import Verif.ReservationProps

/-!
# The new reservations of a queue, from the timeline to the tables (C125)
-/

namespace Oar.Round

open Oar.Launch Oar.ResSet Oar.Kao.Spec

/-! ## Specification -/

/-- What an accepted reservation gets: its start, its walltime and its resources (numbers of the scheduler). -/
structure Plan where
  start : Int
  walltime : Int
  res : ProcSet

/-- The answers given, in order: a reservation and its plan if it is accepted. -/
abbrev Answers := List (Kao.Job × Option Plan)

/-- The start of a reservation: the date asked, or now when it is past. -/
def startOf (now : Int) (j : Kao.Job) : Int := if j.startTime < now then now else j.startTime

/-- `A` is what is left, from `start` to `start + w - sec`, by the timeline `ss` and by the reservations `before` accepted before: nothing in use, and all that nobody uses (a reservation
is allowed to keep its resources for one second more). -/
def Left (ss : Kao.SlotSet) (before : Answers) (start w sec : Int) (A : ProcSet) : Prop :=
  (∀ x ∈ A, ∀ t, start ≤ t → t ≤ start + w - sec → Free ss t x ∧ ∀ e ∈ before, ∀ p, e.2 = some p → p.start ≤ t → t < p.start + p.walltime → x ∉ p.res) ∧
  (∀ x, (∀ t, start ≤ t → t ≤ start + w - sec → Free ss t x ∧ ∀ e ∈ before, ∀ p, e.2 = some p → p.start ≤ t → t ≤ p.start + p.walltime → x ∉ p.res) → x ∈ A)

/-- The answer to the reservation `j`, examined after `before`. Accepted: it is not over, it starts at the date asked or now, within the timeline; its resources are what the hierarchical
search (C05, C06) answers to the request of its first moldable on what is left, and there is one at least. Refused, without quotas, for a request about known levels: it is over, or
what is left cannot satisfy it. -/
def Fair (ctx : Kao.Ctx) (hy : Hierarchy.Hy) (sec now : Int) (ss : Kao.SlotSet) (before : Answers) (j : Kao.Job) : Option Plan → Prop
  | some p => ∃ m ms A, j.mlds = m :: ms ∧ p.walltime = m.walltime ∧ p.start = startOf now j ∧ now < j.startTime + m.walltime ∧
      ss.begin_ ≤ p.start ∧ p.start + p.walltime ≤ ss.end_ ∧ Left ss before p.start p.walltime sec A ∧ Hierarchy.findJob A m.groups hy = some p.res ∧ p.res ⊆ A ∧ p.res ≠ ∅
  | none => ∀ m ms, j.mlds = m :: ms → ctx.env.enabled = false → (∀ g ∈ m.groups, Hierarchy.GroupOk hy g) → ss.begin_ ≤ startOf now j → startOf now j + m.walltime ≤ ss.end_ →
      j.startTime + m.walltime ≤ now ∨ ∃ A, Left ss before (startOf now j) m.walltime sec A ∧ ¬ Hierarchy.Satisfiable hy m.groups A

/-- The first moldable. -/
def firstMold (j : Kao.Job) : Nat := (j.mlds.head?.map Kao.Mld.id).getD 0

/-- The reservation was over before it was examined. -/
def Over (now : Int) (j : Kao.Job) : Prop := ∃ m ms, j.mlds = m :: ms ∧ j.startTime + m.walltime ≤ now

/-- A row of `jobs` after the answer given to a reservation. -/
def Answered (now : Int) (j : Kao.Job) (row row' : LJob) : Option Plan → Prop
  | some p => row' = { row with state := "toAckReservation", reservation := "Scheduled", start := p.start }
  | none => (Over now j ∧ row' = { row with state := "toError", start := j.startTime }) ∨
      (¬ Over now j ∧ row' = { row with state := "toError", reservation := "Scheduled", start := startOf now j })

/-! ## The loop on the reservations -/

/-- The plan of an iteration. -/
def planOf (o : Kao.ArOut) : Option Plan :=
  if "toAckReservation" ∈ o.states then some ⟨o.job.startTime, o.job.walltime.getD 0, o.job.resSet.getD ∅⟩ else none

/-- What a reservation holds, with a margin at the end. -/
def Takes (o : Kao.ArOut) (cut : Int) (x : Nat) (t : Int) : Prop :=
  ∃ p, planOf o = some p ∧ x ∈ p.res ∧ p.start ≤ t ∧ t < p.start + p.walltime - cut

theorem reserveOne_id {ctx : Kao.Ctx} {hy : Hierarchy.Hy} {sec now : Int} {ss : Kao.SlotSet} {job : Kao.Job} {o : Kao.ArOut}
    (h : Kao.reserveOne ctx hy sec now ss job = some o) : o.job.id = job.id := by
  unfold Kao.reserveOne at h
  dsimp only at h
  repeat' split at h
  all_goals first
    | (simp only [Option.some.injEq] at h; rw [← h])
    | (exfalso; simp at h; done)

theorem reserveOne_meta {ctx : Kao.Ctx} {hy : Hierarchy.Hy} {sec now : Int} {ss : Kao.SlotSet} {job : Kao.Job} {o : Kao.ArOut}
    (hok : ∀ m ∈ job.mlds, Kao.ArOk sec m) (hwf : WF ss) (h : Kao.reserveOne ctx hy sec now ss job = some o) : o.slots.begin_ = ss.begin_ ∧ o.slots.end_ = ss.end_ := by
  unfold Kao.reserveOne at h
  dsimp only at h
  generalize hst : (if job.startTime < now then now else job.startTime) = st at h
  split at h
  · simp at h
  rename_i m ms hm
  have hw := (hok m (by rw [hm]; exact List.mem_cons_self)).1
  repeat' split at h
  all_goals first
    | (exfalso; simp at h; done)
    | (simp only [Option.some.injEq] at h; rw [← h]; exact ⟨rfl, rfl⟩)
    | (simp only [Option.some.injEq] at h
       rw [← h]
       rename_i hr _ _ hs
       obtain ⟨_, _, _, k, _⟩ := Kao.range_split hwf hw hr hs
       exact ⟨k.1, k.2.1⟩)

/-- One reservation: what it leaves. -/
theorem reserveOne_left {ctx : Kao.Ctx} {hy : Hierarchy.Hy} {sec now : Int} {ss : Kao.SlotSet} {job : Kao.Job} {o : Kao.ArOut}
    (hok : ∀ m ∈ job.mlds, Kao.ArOk sec m) (hp : Kao.Plain job) (hwf : WF ss) (h : Kao.reserveOne ctx hy sec now ss job = some o) :
    (∀ t x, Free o.slots t x → Free ss t x ∧ ¬ Takes o 0 x t) ∧ (∀ t x, Free ss t x → ¬ Takes o (-1) x t → Free o.slots t x) := by
  cases hm : job.mlds with
  | nil => unfold Kao.reserveOne at h; rw [hm] at h; simp at h
  | cons m ms =>
    by_cases hacc : "toAckReservation" ∈ o.states
    · obtain ⟨_, g2, g3, _, _, _, _, _, _, R, A, q1, _, _, _, _, q6, q7, q8⟩ :=
        Kao.reservation_accepted ctx hy sec now ss job m ms o hm (hok m (by rw [hm]; simp)) hp hwf h hacc
      have hpl : planOf o = some ⟨Kao.arStart now job, m.walltime, R⟩ := by
        unfold planOf; rw [if_pos hacc, g2, g3, q1]; rfl
      constructor
      · intro t x hf
        refine ⟨q8 t x hf, ?_⟩
        rintro ⟨p, e, hx, h1, h2⟩
        rw [hpl, Option.some.injEq] at e
        subst e
        exact ((q6 t x h1 (by simpa using h2)).1 hf).2 hx
      · intro t x hf hn
        refine (q7 t x ?_).2 hf
        by_contra hc
        simp only [not_or, not_lt, not_not] at hc
        exact hn ⟨_, hpl, hc.2.2, hc.1, by show t < Kao.arStart now job + m.walltime - -1; omega⟩
    · obtain ⟨h1, _⟩ := Kao.reservation_refused ctx hy sec now ss job m ms o hm (hok m (by rw [hm]; simp)) hp hwf h hacc
      rw [h1]
      refine ⟨fun t x hf => ⟨hf, ?_⟩, fun t x hf _ => hf⟩
      rintro ⟨p, e, _⟩
      unfold planOf at e
      rw [if_neg hacc] at e
      exact absurd e (by simp)

/-- What is left after `pre`. -/
structure After (ss ss1 : Kao.SlotSet) (pre : List (Kao.Job × Kao.ArOut)) : Prop where
  wf : WF ss1
  begin_ : ss1.begin_ = ss.begin_
  end_ : ss1.end_ = ss.end_
  less : ∀ t x, Free ss1 t x → Free ss t x ∧ ∀ e ∈ pre, ¬ Takes e.2 0 x t
  more : ∀ t x, Free ss t x → (∀ e ∈ pre, ¬ Takes e.2 (-1) x t) → Free ss1 t x

theorem After.cons {ctx : Kao.Ctx} {hy : Hierarchy.Hy} {sec now : Int} {ss ss1 : Kao.SlotSet} {j : Kao.Job} {o : Kao.ArOut} {pre : List (Kao.Job × Kao.ArOut)}
    (hok : ∀ m ∈ j.mlds, Kao.ArOk sec m) (hp : Kao.Plain j) (hwf : WF ss) (ho : Kao.reserveOne ctx hy sec now ss j = some o) (h : After o.slots ss1 pre) :
    After ss ss1 ((j, o) :: pre) := by
  obtain ⟨l1, l2⟩ := reserveOne_left hok hp hwf ho
  obtain ⟨m1, m2⟩ := reserveOne_meta hok hwf ho
  refine ⟨h.wf, h.begin_.trans m1, h.end_.trans m2, ?_, ?_⟩
  · intro t x hf
    obtain ⟨a, b⟩ := h.less t x hf
    obtain ⟨c, d⟩ := l1 t x a
    refine ⟨c, fun e he => ?_⟩
    rcases List.mem_cons.1 he with rfl | he
    · exact d
    · exact b e he
  · intro t x hf hn
    exact h.more t x (l2 t x hf (hn _ List.mem_cons_self)) fun e he => hn e (List.mem_cons_of_mem _ he)

theorem reserveAll_each {ctx : Kao.Ctx} {hy : Hierarchy.Hy} {sec now : Int} : ∀ (jobs : List Kao.Job) (ss ss' : Kao.SlotSet) (os : List Kao.ArOut),
    (∀ j ∈ jobs, Kao.Plain j ∧ ∀ m ∈ j.mlds, Kao.ArOk sec m) → WF ss → Kao.reserveAll ctx hy sec now ss jobs = some (ss', os) →
    os.map (·.job.id) = jobs.map (·.id) ∧ After ss ss' (jobs.zip os) ∧ ∀ pre e post, jobs.zip os = pre ++ e :: post → ∃ ss1, After ss ss1 pre ∧
      Kao.reserveOne ctx hy sec now ss1 e.1 = some e.2
  | [], ss, ss', os, _, hwf, h => by
    simp only [Kao.reserveAll, Option.some.injEq, Prod.mk.injEq] at h
    rw [← h.2, ← h.1]
    refine ⟨rfl, ⟨hwf, rfl, rfl, fun t x hf => ⟨hf, by simp⟩, fun t x hf _ => hf⟩, ?_⟩
    intro pre e post he
    exact absurd he.symm (by simp)
  | j :: js, ss, ss', os, hj, hwf, h => by
    unfold Kao.reserveAll at h
    split at h
    · simp at h
    rename_i o ho
    split at h
    · simp at h
    rename_i sf os' hos
    simp only [Option.some.injEq, Prod.mk.injEq] at h
    obtain ⟨rfl, rfl⟩ := h
    obtain ⟨hpl, hok⟩ := hj j List.mem_cons_self
    have hm := Kao.reserveOne_mono hok hpl hwf ho
    obtain ⟨i1, i2, i3⟩ := reserveAll_each js o.slots sf os' (fun x hx => hj x (List.mem_cons_of_mem _ hx)) hm.1 hos
    refine ⟨by rw [List.map_cons, List.map_cons, reserveOne_id ho, i1], i2.cons hok hpl hwf ho, ?_⟩
    intro pre e post he
    rw [List.zip_cons_cons] at he
    cases pre with
    | nil =>
      simp only [List.nil_append, List.cons.injEq] at he
      obtain ⟨rfl, _⟩ := he
      exact ⟨ss, ⟨hwf, rfl, rfl, fun t x hf => ⟨hf, by simp⟩, fun t x hf _ => hf⟩, ho⟩
    | cons f pre =>
      simp only [List.cons_append, List.cons.injEq] at he
      obtain ⟨rfl, he⟩ := he
      obtain ⟨s1, h1, h2⟩ := i3 pre e post he
      exact ⟨s1, h1.cons hok hpl hwf ho, h2⟩

/-- The answers. -/
def answersOf (l : List (Kao.Job × Kao.ArOut)) : Answers := l.map (fun e => (e.1, planOf e.2))

theorem left_of_after {ss ss1 : Kao.SlotSet} {pre : List (Kao.Job × Kao.ArOut)} (h : After ss ss1 pre) {start w sec : Int} {A : ProcSet}
    (hA : ∀ x, x ∈ A ↔ FreeDuring ss1 start (w - sec + 1) x) : Left ss (answersOf pre) start w sec A := by
  constructor
  · intro x hx t h1 h2
    obtain ⟨a, b⟩ := h.less t x ((hA x).1 hx t h1 (by omega))
    refine ⟨a, ?_⟩
    intro e he p hp h3 h4 hxp
    obtain ⟨f, hf, rfl⟩ := List.mem_map.1 he
    exact b f hf ⟨p, hp, hxp, h3, by omega⟩
  · intro x hx
    rw [hA]
    intro t h1 h2
    obtain ⟨a, b⟩ := hx t h1 (by omega)
    refine h.more t x a ?_
    rintro f hf ⟨p, hp, hxp, h3, h4⟩
    exact b (f.1, planOf f.2) (List.mem_map.2 ⟨f, hf, rfl⟩) p hp h3 (by omega) hxp

theorem startOf_eq (now : Int) (j : Kao.Job) : startOf now j = Kao.arStart now j := by
  unfold startOf Kao.arStart; split <;> omega

/-- The answer of an iteration is fair. -/
theorem fair_of_after {ctx : Kao.Ctx} {hy : Hierarchy.Hy} {sec now : Int} {ss ss1 : Kao.SlotSet} {pre : List (Kao.Job × Kao.ArOut)} (h : After ss ss1 pre) {j : Kao.Job} {o : Kao.ArOut}
    (hok : ∀ m ∈ j.mlds, Kao.ArOk sec m) (hp : Kao.Plain j) (ho : Kao.reserveOne ctx hy sec now ss1 j = some o) : Fair ctx hy sec now ss (answersOf pre) j (planOf o) := by
  by_cases hacc : "toAckReservation" ∈ o.states
  · cases hm : j.mlds with
    | nil => unfold Kao.reserveOne at ho; rw [hm] at ho; simp at ho
    | cons m ms =>
      obtain ⟨g1, g2, g3, _, _, _, g7, g8, _, R, A, q1, q2, q3, q4, q5, _⟩ :=
        Kao.reservation_accepted ctx hy sec now ss1 j m ms o hm (hok m (by rw [hm]; simp)) hp h.wf ho hacc
      have hpl : planOf o = some ⟨Kao.arStart now j, m.walltime, R⟩ := by
        unfold planOf; rw [if_pos hacc, g2, g3, q1]; rfl
      rw [hpl]
      exact ⟨m, ms, A, hm, rfl, (startOf_eq now j).symm, g1, by rw [← h.begin_]; exact g7, by rw [← h.end_]; exact g8, left_of_after h q3, q4, q5, q2⟩
  · have hpl : planOf o = none := by unfold planOf; rw [if_neg hacc]
    rw [hpl]
    intro m ms hm hen hg hb he
    rw [startOf_eq] at hb he ⊢
    obtain ⟨_, _, _, q⟩ := Kao.reservation_refused ctx hy sec now ss1 j m ms o hm (hok m (by rw [hm]; simp)) hp h.wf ho hacc
    rcases q hen hg (by rw [h.begin_]; exact hb) (by rw [h.end_]; exact he) with q | q
    · exact Or.inl q
    · right
      have hk := hok m (by rw [hm]; simp)
      obtain ⟨A, hA⟩ := Kao.freeDuring_finite (t := Kao.arStart now j) (w := m.walltime - sec + 1) h.wf (by have := hk.2.2; omega)
      exact ⟨A, left_of_after h hA, fun hs => q ⟨A, hA, hs⟩⟩

/-! ## The table of jobs -/

/-- One row after one answer. -/
def ackRow (o : Kao.ArOut) (j : LJob) : LJob :=
  { j with state := o.states.getLastD j.state, reservation := if o.resaScheduled then "Scheduled" else j.reservation, start := o.job.startTime }

theorem foldl_ack : ∀ (os : List Kao.ArOut) (db : DB), (os.map (·.job.id)).Nodup →
    os.foldl ackResv db = { db with jobs := db.jobs.map (fun j => match os.find? (fun o => o.job.id == j.id) with | some o => ackRow o j | none => j) }
  | [], db, _ => by simp
  | o :: os, db, hn => by
    obtain ⟨h1, h2⟩ := List.nodup_cons.1 hn
    rw [List.foldl_cons, foldl_ack os _ h2]
    unfold ackResv
    dsimp only
    rw [List.map_map]
    congr 1
    refine List.map_congr_left fun j _ => ?_
    show (match os.find? (fun x => x.job.id == (if j.id = o.job.id then _ else j).id) with | some x => _ | none => _) = _
    by_cases hj : j.id = o.job.id
    · rw [List.find?_cons_of_pos (by simp [hj])]
      have hnone : os.find? (fun x => x.job.id == j.id) = none := by
        rw [List.find?_eq_none]
        intro x hx e
        exact h1 (List.mem_map.2 ⟨x, hx, by show x.job.id = o.job.id; rw [← hj]; simpa using e⟩)
      simp only [if_pos hj, hnone]
      rfl
    · rw [List.find?_cons_of_neg (by simpa using fun e => hj e.symm)]
      simp only [if_neg hj]

/-- A job of the reservations is answered. -/
theorem find_os {os : List Kao.ArOut} (hn : (os.map (·.job.id)).Nodup) {o : Kao.ArOut} (ho : o ∈ os) {i : Nat} (hi : o.job.id = i) :
    os.find? (fun x => x.job.id == i) = some o := by
  cases hf : os.find? (fun x => x.job.id == i) with
  | none => exact absurd (List.find?_eq_none.1 hf o ho) (by simp [hi])
  | some x =>
    have hx : x.job.id = i := by simpa using List.find?_some hf
    exact congrArg some (nodup_inj hn (List.mem_of_find?_eq_some hf) ho (hx.trans hi.symm))

/-- The exact effect of an iteration on the row. -/
theorem reserveOne_row {ctx : Kao.Ctx} {hy : Hierarchy.Hy} {sec now : Int} {ss : Kao.SlotSet} {j : Kao.Job} {o : Kao.ArOut}
    (hok : ∀ m ∈ j.mlds, Kao.ArOk sec m) (hp : Kao.Plain j) (hwf : WF ss) (h : Kao.reserveOne ctx hy sec now ss j = some o) (row : LJob) :
    Answered now j row (ackRow o row) (planOf o) := by
  by_cases hacc : "toAckReservation" ∈ o.states
  · cases hm : j.mlds with
    | nil => unfold Kao.reserveOne at h; rw [hm] at h; simp at h
    | cons m ms =>
      obtain ⟨_, g2, g3, _, g5, g6, _⟩ := Kao.reservation_accepted ctx hy sec now ss j m ms o hm (hok m (by rw [hm]; simp)) hp hwf h hacc
      unfold planOf
      rw [if_pos hacc]
      unfold ackRow Answered
      rw [g5, g6]
      rfl
  · have hpl : planOf o = none := by unfold planOf; rw [if_neg hacc]
    rw [hpl]
    unfold Kao.reserveOne at h
    dsimp only at h
    generalize hst : (if j.startTime < now then now else j.startTime) = st at h
    split at h
    · simp at h
    rename_i m ms hm
    repeat' split at h
    all_goals first
      | (exfalso; simp at h; done)
      | (rename_i hover
         simp only [Option.some.injEq] at h; rw [← h]
         exact Or.inl ⟨⟨m, ms, hm, by omega⟩, rfl⟩)
      | (rename_i hover _ _ _ _ _ _ _ _ _ _ _ _
         simp only [Option.some.injEq] at h; rw [← h]
         refine Or.inr ⟨?_, by rw [← show startOf now j = st from hst]; rfl⟩
         rintro ⟨m', ms', e, hle⟩
         rw [hm] at e
         simp only [List.cons.injEq] at e
         obtain ⟨rfl, rfl⟩ := e
         omega)
      | (exfalso; apply hacc; simp only [Option.some.injEq] at h; rw [← h]; simp; done)

/-! ## The tables after the reservations of a queue -/

/-- The rows of the predictions of the accepted reservations. -/
def startsOf (a : Answers) : List (Nat × Int) := a.filterMap (fun e => e.2.map (fun p => (firstMold e.1, p.start)))

theorem zip_fst : ∀ (l : List Kao.Job) (os : List Kao.ArOut), os.map (·.job.id) = l.map (·.id) → (l.zip os).map (·.1) = l ∧ (l.zip os).map (·.2) = os
  | [], [], _ => ⟨rfl, rfl⟩
  | [], _ :: _, h => by simp at h
  | _ :: _, [], h => by simp at h
  | j :: l, o :: os, h => by
    simp only [List.map_cons, List.cons.injEq] at h
    obtain ⟨a, b⟩ := zip_fst l os h.2
    exact ⟨by rw [List.zip_cons_cons, List.map_cons, a], by rw [List.zip_cons_cons, List.map_cons, b]⟩

/-- What is saved for an accepted reservation. -/
theorem accepted_toE {ctx : Kao.Ctx} {hy : Hierarchy.Hy} {sec now : Int} {ss : Kao.SlotSet} {j : Kao.Job} {o : Kao.ArOut} {db : DB}
    (hok : ∀ m ∈ j.mlds, Kao.ArOk sec m) (hp : Kao.Plain j) (hwf : WF ss) (h : Kao.reserveOne ctx hy sec now ss j = some o) (hr : ∃ l ∈ db.jobs, l.id = j.id) (hn : 0 ≤ now) :
    (planOf o = none → "toAckReservation" ∉ o.states) ∧ ∀ p, planOf o = some p → "toAckReservation" ∈ o.states ∧ -1 < p.start ∧
      ∃ e, toE db o.job = some e ∧ e.mid = firstMold j ∧ e.start = p.start ∧ ∀ k, k ∈ e.res ↔ k ∈ p.res := by
  constructor
  · intro e hacc
    unfold planOf at e
    rw [if_pos hacc] at e
    exact absurd e (by simp)
  intro p e
  by_cases hacc : "toAckReservation" ∈ o.states
  · refine ⟨hacc, ?_⟩
    cases hm : j.mlds with
    | nil => unfold Kao.reserveOne at h; rw [hm] at h; simp at h
    | cons m ms =>
      obtain ⟨_, g2, g3, g4, _⟩ := Kao.reservation_accepted ctx hy sec now ss j m ms o hm (hok m (by rw [hm]; simp)) hp hwf h hacc
      unfold planOf at e
      rw [if_pos hacc, Option.some.injEq] at e
      subst e
      refine ⟨by show -1 < o.job.startTime; rw [g2]; unfold Kao.arStart; omega, ?_⟩
      obtain ⟨l, hl, hli⟩ := hr
      cases hf : toE db o.job with
      | none =>
        unfold toE at hf
        rw [Option.map_eq_none_iff, List.find?_eq_none] at hf
        exact absurd (hf l hl) (by simp [hli, reserveOne_id h])
      | some e =>
        obtain ⟨_, q2, q3, q4, _⟩ := toE_spec hf
        refine ⟨e, rfl, ?_, q3, fun k => ?_⟩
        · rw [q2, g4]; unfold firstMold; rw [hm]; rfl
        · rw [q4, mem_procList]
  · unfold planOf at e
    rw [if_neg hacc] at e
    exact absurd e (by simp)

/-- The rows saved. -/
theorem saved_rows {s : RS} {db : DB} : ∀ (l : List (Kao.Job × Kao.ArOut)),
    (∀ e ∈ l, (planOf e.2 = none → "toAckReservation" ∉ e.2.states) ∧ ∀ p, planOf e.2 = some p → "toAckReservation" ∈ e.2.states ∧ -1 < p.start ∧
      ∃ x, toE db e.2.job = some x ∧ x.mid = firstMold e.1 ∧ x.start = p.start ∧ ∀ k, k ∈ x.res ↔ k ∈ p.res) →
    ((((l.map (·.2)).filter (fun o => o.states.contains "toAckReservation")).filterMap (fun o => toE db o.job)).filter (fun e => decide (-1 < e.start))).map (fun e => (e.mid, e.start)) =
      startsOf (answersOf l) ∧
    ∀ g, g ∈ ((((l.map (·.2)).filter (fun o => o.states.contains "toAckReservation")).filterMap (fun o => toE db o.job)).filter (fun e => decide (-1 < e.start))).flatMap
        (fun e => e.res.map (fun k => (e.mid, s.o2i k))) ↔ ∃ e ∈ answersOf l, ∃ p, e.2 = some p ∧ ∃ k ∈ p.res, g = (firstMold e.1, s.o2i k)
  | [], _ => by constructor <;> simp [startsOf, answersOf]
  | e :: l, h => by
    obtain ⟨i1, i2⟩ := saved_rows (s := s) l (fun x hx => h x (List.mem_cons_of_mem _ hx))
    obtain ⟨h1, h2⟩ := h e List.mem_cons_self
    cases hp : planOf e.2 with
    | none =>
      have hc := h1 hp
      rw [List.map_cons, List.filter_cons_of_neg (by simpa using hc)]
      constructor
      · rw [i1]
        show _ = List.filterMap _ (_ :: answersOf l)
        rw [List.filterMap_cons]
        dsimp only
        rw [hp]
        rfl
      · intro g
        rw [i2]
        constructor
        · rintro ⟨x, hx, r⟩; exact ⟨x, List.mem_cons_of_mem _ hx, r⟩
        · rintro ⟨x, hx, p, hxp, r⟩
          rcases List.mem_cons.1 (show x ∈ (e.1, planOf e.2) :: answersOf l from hx) with rfl | hx
          · rw [show planOf e.2 = some p from hxp] at hp; exact absurd hp (by simp)
          · exact ⟨x, hx, p, hxp, r⟩
    | some p =>
      obtain ⟨hc, hs, x, hx, hx1, hx2, hx3⟩ := h2 p hp
      rw [List.map_cons, List.filter_cons_of_pos (by simpa using hc), List.filterMap_cons_some (f := fun o : Kao.ArOut => toE db o.job) hx, List.filter_cons_of_pos (by rw [hx2]; simpa using hs)]
      constructor
      · rw [List.map_cons, i1, hx1, hx2]
        show _ = List.filterMap _ (_ :: answersOf l)
        rw [List.filterMap_cons]
        dsimp only
        rw [hp]
        rfl
      · intro g
        rw [List.flatMap_cons, List.mem_append, i2]
        constructor
        · rintro (hg | ⟨y, hy, r⟩)
          · obtain ⟨k, hk, rfl⟩ := List.mem_map.1 hg
            exact ⟨(e.1, planOf e.2), List.mem_cons_self, p, hp, k, (hx3 k).1 hk, by rw [hx1]⟩
          · exact ⟨y, List.mem_cons_of_mem _ hy, r⟩
        · rintro ⟨y, hy, q, hyq, k, hk, rfl⟩
          rcases List.mem_cons.1 (show y ∈ (e.1, planOf e.2) :: answersOf l from hy) with rfl | hy
          · left
            rw [show planOf e.2 = some q from hyq, Option.some.injEq] at hp
            subst hp
            exact List.mem_map.2 ⟨k, (hx3 k).2 hk, by rw [hx1]⟩
          · exact Or.inr ⟨y, hy, q, hyq, k, hk, rfl⟩

/-- **C125.** The new reservations of a queue, none of whose earlier ones is waiting: each is examined once, in the order given, after those accepted before it, and the answer is fair; the
row of each one says what was answered, and the date; the other rows are kept; the predictions of the accepted ones, and only they, are added, with the resources promised (in the numbers of
the database); in the timeline given to the following queues, the resources promised are not free. -/
theorem reservations_recorded_partial {ctx : Kao.Ctx} {s : RS} {sec timeout now : Int} {q : String} {resv : List Kao.Job} {db db' : DB} {sets sets' : List (String × Kao.SlotSet)}
    {ss : Kao.SlotSet} (hne : resv ≠ []) (hss : sets.lookup "default" = some ss) (hwf : WF ss) (hnow : 0 ≤ now) (hnd : (resv.map (·.id)).Nodup)
    (hrow : ∀ j ∈ resv, ∃ l ∈ db.jobs, l.id = j.id) (hp : ∀ j ∈ resv, Kao.Plain j ∧ ∀ m ∈ j.mlds, 0 < m.walltime ∧ 0 ≤ sec ∧ sec ≤ m.walltime)
    (hw : ∀ l ∈ db.jobs, l.queue = q → l.reservation = "Scheduled" → l.state ≠ "Waiting")
    (h : queueResv ctx s sec timeout now q resv (db, sets) = some (db', sets')) :
    ∃ a : Answers, a.map (·.1) = resv ∧ (∀ before e after, a = before ++ e :: after → Fair ctx (hyOf s) sec now ss before e.1 e.2) ∧
      (∃ f : LJob → LJob, db'.jobs = db.jobs.map f ∧ (∀ row, row.id ∉ resv.map (·.id) → f row = row) ∧ ∀ e ∈ a, ∀ row, row.id = e.1.id → Answered now e.1 row (f row) e.2) ∧
      (∃ gs, db' = { db with jobs := db'.jobs, preds := db.preds ++ startsOf a, gres := db.gres ++ gs } ∧
        ∀ g, g ∈ gs ↔ ∃ e ∈ a, ∃ p, e.2 = some p ∧ ∃ k ∈ p.res, g = (firstMold e.1, s.o2i k)) ∧
      ∃ ss', sets'.lookup "default" = some ss' ∧ (∀ n, n ≠ "default" → sets'.lookup n = sets.lookup n) ∧ WF ss' ∧
        (∀ t x, Free ss' t x → Free ss t x ∧ ∀ e ∈ a, ∀ p, e.2 = some p → p.start ≤ t → t < p.start + p.walltime → x ∉ p.res) ∧
        ∀ t x, Free ss t x → (∀ e ∈ a, ∀ p, e.2 = some p → p.start ≤ t → t ≤ p.start + p.walltime → x ∉ p.res) → Free ss' t x := by
  have hwt : waitingResv s sec q db = [] := by
    have : (join db).filter (fun r => r.job.queue == q && r.job.reservation == "Scheduled" && r.job.state == "Waiting") = [] := by
      rw [List.filter_eq_nil_iff]
      intro r hr hc
      simp only [Bool.and_eq_true, beq_iff_eq] at hc
      exact hw _ ((mem_join _ r).1 hr).2.2.1 hc.1.1 hc.1.2 hc.2
    unfold waitingResv
    rw [this]
    rfl
  unfold queueResv at h
  rw [hwt] at h
  change (if resv = [] then _ else match sets.lookup "default" with | none => none | some ss => _) = _ at h
  rw [if_neg hne, hss] at h
  dsimp only at h
  cases hr : Kao.reserveAll ctx (hyOf s) sec now ss resv with
  | none => rw [hr] at h; simp at h
  | some r =>
    obtain ⟨ss', os⟩ := r
    rw [hr] at h
    simp only [Option.some.injEq, Prod.mk.injEq] at h
    obtain ⟨hdb, hset⟩ := h
    obtain ⟨e1, e2, e3⟩ := reserveAll_each resv ss ss' os hp hwf hr
    obtain ⟨z1, z2⟩ := zip_fst resv os e1
    have hnd' : (os.map (·.job.id)).Nodup := by rw [e1]; exact hnd
    have hev : ∀ e ∈ resv.zip os, ∃ ss1, WF ss1 ∧ Kao.reserveOne ctx (hyOf s) sec now ss1 e.1 = some e.2 ∧ e.1 ∈ resv := by
      intro e he
      obtain ⟨pre, post, hpp⟩ := List.append_of_mem he
      obtain ⟨ss1, h1, h2⟩ := e3 pre e post hpp
      exact ⟨ss1, h1.wf, h2, by rw [← z1]; exact List.mem_map_of_mem he⟩
    rw [foldl_ack os db hnd'] at hdb
    have hsaved := saved_rows (s := s) (db := { db with jobs := db.jobs.map (fun j => match os.find? (fun o => o.job.id == j.id) with | some o => ackRow o j | none => j) })
      (resv.zip os) (by
        intro e he
        obtain ⟨ss1, w1, w2, w3⟩ := hev e he
        refine accepted_toE (hp _ w3).2 (hp _ w3).1 w1 w2 ?_ hnow
        obtain ⟨l, hl, hli⟩ := hrow _ w3
        refine ⟨_, List.mem_map_of_mem hl, ?_⟩
        rw [← hli]
        split <;> rfl)
    rw [z2] at hsaved
    refine ⟨answersOf (resv.zip os), ?_, ?_, ⟨_, by rw [← hdb]; rfl, ?_, ?_⟩, ⟨_, ?_, hsaved.2⟩, ss', ?_, ?_, e2.wf, ?_, ?_⟩
    · unfold answersOf
      rw [List.map_map]
      exact z1
    · intro before e after he
      unfold answersOf at he
      obtain ⟨l1, l2, hl, hb, hl2⟩ := List.map_eq_append_iff.1 he
      obtain ⟨x, l3, hl3, hx, _⟩ := List.map_eq_cons_iff.1 hl2
      subst hl3
      obtain ⟨ss1, h1, h2⟩ := e3 l1 x l3 hl
      have hm : x.1 ∈ resv := by rw [← z1]; exact List.mem_map_of_mem (by rw [hl]; simp)
      rw [← hb, ← hx]
      exact fair_of_after h1 (hp _ hm).2 (hp _ hm).1 h2
    · intro row hrw
      have : os.find? (fun o => o.job.id == row.id) = none := by
        rw [List.find?_eq_none]
        intro o ho hc
        refine hrw ?_
        rw [← e1]
        exact List.mem_map.2 ⟨o, ho, by simpa using hc⟩
      rw [this]
    · intro e he row hrw
      obtain ⟨x, hx, rfl⟩ := List.mem_map.1 he
      obtain ⟨ss1, w1, w2, w3⟩ := hev x hx
      have ho : x.2 ∈ os := by rw [← z2]; exact List.mem_map_of_mem hx
      rw [find_os hnd' ho (i := row.id) ((reserveOne_id w2).trans hrw.symm)]
      exact reserveOne_row (hp _ w3).2 (hp _ w3).1 w1 w2 row
    · rw [← hdb]
      unfold saveAssigns
      rw [hsaved.1]
    · rw [← hset, Kao.lookup_dictSet, if_pos rfl]
    · intro n hn
      rw [← hset, Kao.lookup_dictSet, if_neg hn]
    · intro t x hf
      obtain ⟨a, b⟩ := e2.less t x hf
      refine ⟨a, fun e he p hpp h3 h4 hx => ?_⟩
      obtain ⟨y, hy, rfl⟩ := List.mem_map.1 he
      exact b y hy ⟨p, hpp, hx, h3, by omega⟩
    · intro t x hf hn
      refine e2.more t x hf ?_
      rintro y hy ⟨p, hpp, hx, h3, h4⟩
      exact hn _ (List.mem_map.2 ⟨y, hy, rfl⟩) p hpp h3 (by omega) hx

/-- A prediction of a job whose reservation is accepted stays during the beginning of a round. -/
theorem flush_kept {db : DB} {mid : Nat} {t : Int} {l : LJob} {m : Launch.Mold} (hm : m ∈ db.molds) (hid : m.id = mid) (hl : l ∈ db.jobs) (hlm : l.id = m.job)
    (hs : l.state = "Waiting" ∨ l.state = "toAckReservation") (hr : l.reservation = "Scheduled") (hp : (mid, t) ∈ db.preds) {r : Nat} (hg : (mid, r) ∈ db.gres) :
    (mid, t) ∈ (flush (reservationsToKeep db) db).preds ∧ ∀ k, (mid, k) ∈ db.gres → (mid, k) ∈ (flush (reservationsToKeep db) db).gres := by
  have hk : mid ∈ reservationsToKeep db := by
    unfold reservationsToKeep
    refine List.mem_map.2 ⟨m, List.mem_filter.2 ⟨hm, ?_⟩, hid⟩
    rw [decide_eq_true_eq]
    refine ⟨List.any_eq_true.2 ⟨_, hp, by simp [hid]⟩, List.any_eq_true.2 ⟨_, hg, by simp [hid]⟩, List.any_eq_true.2 ⟨l, hl, ?_⟩⟩
    rcases hs with h | h <;> simp [h, hr, hlm]
  have hne : reservationsToKeep db ≠ [] := fun e => by rw [e] at hk; exact absurd hk (by simp)
  unfold flush
  rw [if_pos hne]
  exact ⟨List.mem_filter.2 ⟨hp, by simpa using hk⟩, fun k hgk => List.mem_filter.2 ⟨hgk, by simpa using hk⟩⟩

/-- **C125.** A round that begins after the answers, while a reservation accepted waits or is to be acknowledged, keeps its date and its resources. -/
theorem accepted_kept {ctx ctx' : Kao.Ctx} {s : RS} {sec now : Int} {db db2 : DB} {sets : List (String × Kao.SlotSet)} {sched : List EJob} {js : List Kao.Job} {j : Kao.Job} {p : Plan}
    (hmold : ∃ m ∈ db.molds, m.id = firstMold j ∧ m.job = j.id) (hrow : ∃ l ∈ db.jobs, l.id = j.id ∧ (l.state = "Waiting" ∨ l.state = "toAckReservation") ∧ l.reservation = "Scheduled")
    (hne : p.res ≠ ∅) (hp : (firstMold j, p.start) ∈ db.preds) (hg : ∀ k ∈ p.res, (firstMold j, s.o2i k) ∈ db.gres)
    (h : init ctx s sec now db = some (db2, ctx', sets, sched, js)) :
    (firstMold j, p.start) ∈ db2.preds ∧ ∀ k ∈ p.res, (firstMold j, s.o2i k) ∈ db2.gres := by
  obtain ⟨m, hm, hmi, hmj⟩ := hmold
  obtain ⟨l, hl, hli, hls, hlr⟩ := hrow
  obtain ⟨k0, hk0⟩ := Finset.nonempty_iff_ne_empty.2 hne
  obtain ⟨f1, f2⟩ := flush_kept hm hmi hl (hli.trans hmj.symm) hls hlr hp (hg k0 hk0)
  have e : db2 = saveAssigns s (flush (reservationsToKeep db) db) (current s (flush (reservationsToKeep db) db)) := by
    unfold init at h
    dsimp only at h
    split at h
    · simp at h
    split at h
    · simp at h
    split at h
    · simp only [Option.some.injEq, Prod.mk.injEq] at h
      exact h.1.symm
    · rw [Option.map_eq_some_iff] at h
      obtain ⟨_, _, h⟩ := h
      simp only [Prod.mk.injEq] at h
      exact h.1.symm
  rw [e]
  exact ⟨List.mem_append_left _ f1, fun k hk => List.mem_append_left _ (f2 _ (hg k hk))⟩

/-! ## Examples -/

/-- A reservation of `k` of the machines 5, 7 and 9 from `t` during `w`. -/
def exResv (id mid : Nat) (k : Int) (t w : Int) : Kao.Job := { id := id, startTime := t, mlds := [⟨mid, w, [⟨[("id", k)], {0, 1, 2}⟩]⟩] }

def exSets : List (String × Kao.SlotSet) := [("default", Kao.SlotSet.ofItvs exCtx {0, 1, 2} 100)]

def exAsk (id : Nat) (t : Int) : LJob := { exJob id "Waiting" [] t 0 with reservation := "toSchedule" }

def exResvDb : DB := ⟨[exAsk 1 200, exAsk 2 250, exAsk 3 50, exAsk 4 10], [⟨11, 1, 100⟩, ⟨12, 2, 100⟩, ⟨13, 3, 100⟩, ⟨14, 4, 50⟩], [], [], [], [], [], []⟩

theorem some_getD {α : Type} {o : Option α} {d : α} (h : o.isSome = true) : o = some (o.getD d) := by
  cases o with
  | none => simp at h
  | some x => rfl

/-- Four reservations: accepted, refused (one machine is left), accepted late, over. -/
theorem exResv_queue : ∃ r, queueResv exCtx exS 10 0 100 "default" [exResv 1 11 2 200 100, exResv 2 12 2 250 100, exResv 3 13 1 50 100, exResv 4 14 1 10 50] (exResvDb, exSets) = some r ∧
    r.1.jobs.map (fun j => (j.id, j.state, j.reservation, j.start)) =
      [(1, "toAckReservation", "Scheduled", 200), (2, "toError", "Scheduled", 250), (3, "toAckReservation", "Scheduled", 100), (4, "toError", "toSchedule", 10)] ∧
    r.1.preds = [(11, 200), (13, 100)] ∧ r.1.gres = [(11, 5), (11, 7), (13, 5)] :=
  ⟨((queueResv exCtx exS 10 0 100 "default" [exResv 1 11 2 200 100, exResv 2 12 2 250 100, exResv 3 13 1 50 100, exResv 4 14 1 10 50] (exResvDb, exSets))).getD (exResvDb, exSets),
    some_getD (by decide +kernel), by decide +kernel, by decide +kernel, by decide +kernel⟩

/-- The next round begins with the same predictions. -/
theorem exKept : ((queueResv exCtx exS 10 0 100 "default" [exResv 1 11 2 200 100, exResv 2 12 2 250 100, exResv 3 13 1 50 100, exResv 4 14 1 10 50] (exResvDb, exSets)).bind
      (fun r => (init exCtx exS 10 105 r.1).map (fun x => (x.1.preds, x.1.gres)))) = some ([(11, 200), (13, 100)], [(11, 5), (11, 7), (13, 5)]) := by
  decide +kernel

/-- The hypotheses of `reservations_recorded_partial` hold for it. -/
theorem exResv_hyp : WF (Kao.SlotSet.ofItvs exCtx {0, 1, 2} 100) ∧
    ([exResv 1 11 2 200 100, exResv 2 12 2 250 100, exResv 3 13 1 50 100, exResv 4 14 1 10 50].map (·.id)).Nodup ∧
    (∀ j ∈ [exResv 1 11 2 200 100, exResv 2 12 2 250 100, exResv 3 13 1 50 100, exResv 4 14 1 10 50], ∃ l ∈ exResvDb.jobs, l.id = j.id) ∧
    (∀ j ∈ [exResv 1 11 2 200 100, exResv 2 12 2 250 100, exResv 3 13 1 50 100, exResv 4 14 1 10 50], Kao.Plain j ∧ ∀ m ∈ j.mlds, 0 < m.walltime ∧ (0 : Int) ≤ 10 ∧ 10 ≤ m.walltime) ∧
    (∀ l ∈ exResvDb.jobs, l.queue = "default" → l.reservation = "Scheduled" → l.state ≠ "Waiting") := by
  refine ⟨(Kao.fresh_wf exCtx {0, 1, 2} 100 100).1 (by decide), by decide, by decide, ?_, by decide⟩
  unfold Kao.Plain
  decide

/-- **C125** (violated). Only the first alternative of a reservation is examined: a reservation of four machines or of two is refused although three are free. -/
theorem alternatives_violated : let j : Kao.Job := { id := 1, startTime := 200, mlds := [⟨11, 100, [⟨[("id", 4)], {0, 1, 2}⟩]⟩, ⟨12, 100, [⟨[("id", 2)], {0, 1, 2}⟩]⟩] }
    ((queueResv exCtx exS 10 0 100 "default" [j] (exResvDb, exSets)).map (fun x => (x.1.jobs.map (fun j => (j.id, j.state)), x.1.preds)) =
      some ([(1, "toError"), (2, "Waiting"), (3, "Waiting"), (4, "Waiting")], [])) ∧
    ((queueResv exCtx exS 10 0 100 "default" [{ j with mlds := j.mlds.drop 1 }] (exResvDb, exSets)).map (fun x => (x.1.jobs.map (fun j => (j.id, j.state)), x.1.preds)) =
      some ([(1, "toAckReservation"), (2, "Waiting"), (3, "Waiting"), (4, "Waiting")], [(12, 200)])) := by
  decide +kernel

/-- **C125** (violated). A reservation inside a container (the machine with number 2) is placed outside of it. -/
theorem inner_violated : let j : Kao.Job := { exResv 1 11 1 200 100 with types := [("inner", "9")] }
    (queueResv exCtx exS 10 0 100 "default" [j] (exResvDb, exSets ++ [("9", Kao.SlotSet.ofItvs exCtx {2} 100)])).map (fun x => (x.1.preds, x.1.gres, x.2.map (·.1))) =
      some ([(11, 200)], [(11, 5)], ["default", "9"]) ∧ exS.o2i 2 = 9 := by
  decide +kernel

end Oar.Round
