import Verif.Launch
import Verif.ResourceSetProps
import Verif.JobTypesProps

/-!
# C32, C33, C36, C43, C63: launching of the jobs, late reservations, Gantt tables
-/

namespace Oar.Launch

open Oar.ResSet Oar.JobTypes Oar.Tools

/-! ## Specification -/

/-- The rows of a job follow each other. -/
def Grouped : List Row → Prop
  | [] => True
  | r :: rs => Grouped rs ∧ ((∃ x ∈ rs, x.job.id = r.job.id) → ∃ x t, rs = x :: t ∧ x.job.id = r.job.id)

instance : ∀ rows : List Row, Decidable (Grouped rows)
  | [] => isTrue trivial
  | r :: rs => by
    have h1 : Decidable (Grouped rs) := instDecidableGrouped rs
    have h2 : Decidable (∃ x t, rs = x :: t ∧ x.job.id = r.job.id) := by
      cases rs with
      | nil => exact isFalse (by simp)
      | cons y t =>
        exact decidable_of_iff (y.job.id = r.job.id)
          ⟨fun h => ⟨y, t, rfl, h⟩, fun ⟨x, t', e, h⟩ => by cases e; exact h⟩
    unfold Grouped
    infer_instance

/-- A best-effort job of the list holds the resource of ordered number `k`. -/
def HeldByBestEffort (sched : List EJob) (k : Nat) (b : LJob) : Prop :=
  ∃ e ∈ sched, e.job = b ∧ ((tjob b).types.lookup (txt "besteffort")).isSome = true ∧ k ∈ e.res

/-- `rows` is an answer of the database to the query of the jobs to launch before `date`. -/
def Answer (db : DB) (date : Int) (rows : List Row) : Prop :=
  ∀ r : Row, r ∈ rows ↔ r ∈ join db ∧ r.start ≤ date ∧ r.job.state = "Waiting"

theorem mem_join (db : DB) (r : Row) :
    r ∈ join db ↔ (r.mid, r.start) ∈ db.preds ∧ (∃ m ∈ db.molds, m.id = r.mid ∧ m.job = r.job.id ∧ m.walltime = r.walltime) ∧
      r.job ∈ db.jobs ∧ (r.mid, r.rid) ∈ db.gres := by
  unfold join
  simp only [List.mem_flatMap, List.mem_filter, List.mem_map, decide_eq_true_eq]
  constructor
  · rintro ⟨⟨p1, p2⟩, hp, m, ⟨hm, hmp⟩, j, ⟨hj, hjm⟩, ⟨g1, g2⟩, ⟨hg, hgp⟩, rfl⟩
    dsimp only at *
    subst hgp
    exact ⟨hp, ⟨m, hm, hmp, hjm.symm, rfl⟩, hj, hg⟩
  · rintro ⟨hp, ⟨m, hm, h1, h2, h3⟩, hj, hg⟩
    refine ⟨_, hp, m, ⟨hm, h1⟩, r.job, ⟨hj, h2.symm⟩, _, ⟨hg, rfl⟩, ?_⟩
    cases r
    simp_all

/-! ## Extraction of the jobs -/

theorem runs_sound (rows : List Row) : ∀ x ∈ runs rows, x.1 ∈ rows ∧ x.1.rid ∈ x.2 ∧
    ∀ i ∈ x.2, ∃ r ∈ rows, r.job.id = x.1.job.id ∧ r.rid = i := by
  induction rows with
  | nil => simp [runs]
  | cons r rs ih =>
    intro x hx
    unfold runs at hx
    cases hr : runs rs with
    | nil =>
      rw [hr] at hx
      simp only [List.mem_singleton] at hx
      subst hx
      exact ⟨by simp, by simp, fun i hi => ⟨r, by simp, rfl, (List.mem_singleton.1 hi).symm⟩⟩
    | cons y t =>
      obtain ⟨r', l⟩ := y
      rw [hr] at hx ih
      dsimp only at hx
      have key : ∀ z ∈ (r', l) :: t, z.1 ∈ r :: rs ∧ z.1.rid ∈ z.2 ∧ ∀ i ∈ z.2, ∃ r0 ∈ r :: rs, r0.job.id = z.1.job.id ∧ r0.rid = i := by
        intro z hz
        obtain ⟨a, b, c⟩ := ih z hz
        exact ⟨List.mem_cons_of_mem _ a, b, fun i hi => by
          obtain ⟨q, hq, h⟩ := c i hi
          exact ⟨q, List.mem_cons_of_mem _ hq, h⟩⟩
      split at hx
      · rename_i he
        rcases List.mem_cons.1 hx with rfl | hx
        · refine ⟨by simp, by simp, ?_⟩
          intro i hi
          rcases List.mem_cons.1 hi with rfl | hi
          · exact ⟨r, by simp, rfl, rfl⟩
          · obtain ⟨_, _, c⟩ := key (r', l) (by simp)
            obtain ⟨q, hq, h1, h2⟩ := c i hi
            exact ⟨q, hq, h1.trans he.symm, h2⟩
        · exact key x (List.mem_cons_of_mem _ hx)
      · rcases List.mem_cons.1 hx with rfl | hx
        · exact ⟨by simp, by simp, fun i hi => ⟨r, by simp, rfl, (List.mem_singleton.1 hi).symm⟩⟩
        · exact key x hx

theorem runs_complete (rows : List Row) : ∀ r ∈ rows, ∃ x ∈ runs rows, x.1.job.id = r.job.id ∧ r.rid ∈ x.2 := by
  induction rows with
  | nil => simp
  | cons r rs ih =>
    intro q hq
    unfold runs
    cases hr : runs rs with
    | nil =>
      rw [hr] at ih
      rcases List.mem_cons.1 hq with rfl | hq
      · exact ⟨_, List.mem_singleton.2 rfl, rfl, by simp⟩
      · obtain ⟨x, hx, _⟩ := ih q hq
        cases hx
    | cons y t =>
      obtain ⟨r', l⟩ := y
      rw [hr] at ih
      dsimp only
      split
      · rename_i he
        rcases List.mem_cons.1 hq with rfl | hq
        · exact ⟨_, List.mem_cons_self, rfl, by simp⟩
        · obtain ⟨x, hx, h1, h2⟩ := ih q hq
          rcases List.mem_cons.1 hx with rfl | hx
          · exact ⟨_, List.mem_cons_self, he.trans h1, by simp [h2]⟩
          · exact ⟨x, List.mem_cons_of_mem _ hx, h1, h2⟩
      · rcases List.mem_cons.1 hq with rfl | hq
        · exact ⟨_, List.mem_cons_self, rfl, by simp⟩
        · obtain ⟨x, hx, h1, h2⟩ := ih q hq
          exact ⟨x, List.mem_cons_of_mem _ hx, h1, h2⟩

theorem runs_head (r : Row) (rs : List Row) : ∃ l t, runs (r :: rs) = (r, l) :: t := by
  unfold runs
  split
  · exact ⟨_, _, rfl⟩
  · split
    · exact ⟨_, _, rfl⟩
    · exact ⟨_, _, rfl⟩

theorem runs_nodup (rows : List Row) (h : Grouped rows) : ((runs rows).map (fun x => x.1.job.id)).Nodup := by
  induction rows with
  | nil => simp [runs]
  | cons r rs ih =>
    obtain ⟨h1, h2⟩ := h
    have ih := ih h1
    have hs := runs_sound rs
    unfold runs
    cases hr : runs rs with
    | nil => simp
    | cons y t =>
      obtain ⟨r', l⟩ := y
      rw [hr] at ih hs
      dsimp only
      split
      · rename_i he
        simp only [List.map_cons, List.nodup_cons] at ih ⊢
        rw [he]; exact ih
      · rename_i he
        simp only [List.map_cons, List.nodup_cons] at ih ⊢
        refine ⟨?_, ih⟩
        intro hm
        have : ∃ z ∈ (r', l) :: t, z.1.job.id = r.job.id := by
          rcases List.mem_cons.1 hm with h | h
          · exact ⟨(r', l), by simp, h.symm⟩
          · obtain ⟨z, hz, hz2⟩ := List.mem_map.1 h
            exact ⟨z, List.mem_cons_of_mem _ hz, hz2⟩
        obtain ⟨z, hz, hzid⟩ := this
        obtain ⟨x, t', e, hx⟩ := h2 ⟨z.1, (hs z hz).1, hzid⟩
        subst e
        obtain ⟨l2, t2, e2⟩ := runs_head x t'
        rw [e2] at hr
        cases hr
        exact he hx.symm

/-- Without treatment of the suspended jobs. -/
theorem treatLast_waiting (s : RS) (l : List EJob) (h : ∀ e ∈ l, e.job.state ≠ "Suspended") : treatLast s l = l := by
  induction l with
  | nil => rfl
  | cons e l ih =>
    cases l with
    | nil => simp [treatLast, h e (by simp)]
    | cons e' l =>
      rw [treatLast]
      rw [ih (fun x hx => h x (List.mem_cons_of_mem _ hx))]
      simp

theorem lastOf_self (l : List EJob) (hn : (l.map (fun e => e.job.id)).Nodup) (e : EJob) (he : e ∈ l) : lastOf l e = e := by
  unfold lastOf
  cases h : l.reverse.find? (fun x => decide (x.job.id = e.job.id)) with
  | none => rfl
  | some x =>
    have hx := List.find?_some h
    have hm := List.mem_of_find?_eq_some h
    simp only [decide_eq_true_eq] at hx
    have hm' : x ∈ l := by simpa using hm
    obtain ⟨i, hi, ei⟩ := List.getElem_of_mem hm'
    obtain ⟨k, hk, ek⟩ := List.getElem_of_mem he
    have : i = k := by
      refine (List.getElem_inj (h₀ := by simpa using hi) (h₁ := by simpa using hk) hn).1 ?_
      simp [ei, ek, hx]
    subst this
    exact ei.symm.trans ek

theorem lastOf_mem (l : List EJob) (e : EJob) (he : e ∈ l) : lastOf l e ∈ l ∧ (lastOf l e).job.id = e.job.id := by
  unfold lastOf
  cases h : l.reverse.find? (fun x => decide (x.job.id = e.job.id)) with
  | none => exact ⟨he, rfl⟩
  | some x =>
    have hx := List.find?_some h
    have hm := List.mem_of_find?_eq_some h
    simp only [decide_eq_true_eq] at hx
    exact ⟨by simpa using hm, hx⟩

/-- For waiting jobs, an extracted job comes from one of the rows. -/
theorem extract_sound (s : RS) (sec : Int) (rows : List Row) (hw : ∀ r ∈ rows, r.job.state ≠ "Suspended") (e : EJob)
    (he : e ∈ extract s sec rows) : ∃ r ∈ rows, e.job = r.job ∧ e.mid = r.mid ∧ e.start = r.start ∧
      e.walltime = r.walltime + sec + (if r.job.suspended then r.job.suspSum else 0) := by
  unfold extract at he
  dsimp only at he
  have hws : ∀ e ∈ (runs rows).map (mkJob s sec), e.job.state ≠ "Suspended" := by
    intro x hx
    obtain ⟨y, hy, rfl⟩ := List.mem_map.1 hx
    exact hw _ (runs_sound rows y hy).1
  rw [treatLast_waiting s _ hws] at he
  obtain ⟨e0, he0, rfl⟩ := List.mem_map.1 he
  obtain ⟨y, hy, h⟩ := List.mem_map.1 (lastOf_mem _ e0 he0).1
  rw [← h]
  exact ⟨y.1, (runs_sound rows y hy).1, rfl, rfl, rfl, rfl⟩

/-- When rows are grouped by job, each job is extracted once with all its resources. -/
theorem extract_grouped (s : RS) (sec : Int) (rows : List Row) (hg : Grouped rows)
    (hw : ∀ r ∈ rows, r.job.state ≠ "Suspended") :
    extract s sec rows = (runs rows).map (mkJob s sec) := by
  unfold extract
  dsimp only
  have hws : ∀ e ∈ (runs rows).map (mkJob s sec), e.job.state ≠ "Suspended" := by
    intro x hx
    obtain ⟨y, hy, rfl⟩ := List.mem_map.1 hx
    exact hw _ (runs_sound rows y hy).1
  rw [treatLast_waiting s _ hws]
  have hn : (((runs rows).map (mkJob s sec)).map (fun e => e.job.id)).Nodup := by
    rw [List.map_map]
    exact runs_nodup rows hg
  conv => rhs; rw [← List.map_id ((runs rows).map (mkJob s sec))]
  apply List.map_congr_left
  intro e he
  exact lastOf_self _ hn e he

/-! ## Launching -/

/-- The row of a job once launched. -/
def launched (now : Int) (mid : Nat) (j : LJob) : LJob := { j with start := now, mold := mid, state := "toLaunch" }

theorem prepare_jobs (db : DB) (now : Int) (e : EJob) :
    (prepare db now e).jobs = db.jobs.map (fun j => if j.id = e.job.id then launched now e.mid j else j) := rfl

theorem launchOne_jobs (now : Int) (db : DB) (e : EJob) :
    (launchOne now db e).jobs = db.jobs.map (fun j => if j.id = e.job.id then launched now e.mid j else j) := by
  unfold launchOne
  split <;> rfl

theorem launchOne_gres (now : Int) (db : DB) (e : EJob) : (launchOne now db e).gres = db.gres := by
  unfold launchOne
  split <;> rfl

theorem launchOne_assigned (now : Int) (db : DB) (e : EJob) :
    (launchOne now db e).assigned = db.assigned ++ db.gres.filter (fun g => g.1 = e.mid) := by
  unfold launchOne
  split <;> rfl

theorem launchOne_sent (now : Int) (db : DB) (e : EJob) : (launchOne now db e).sent = db.sent ++ [e.job.id] := by
  unfold launchOne
  split <;> rfl

theorem launchOne_frag (now : Int) (db : DB) (e : EJob) : (launchOne now db e).frag = db.frag := by
  unfold launchOne
  split <;> rfl

/-- What launching a list of jobs does to the table of jobs. -/
theorem launchAll_jobs (now : Int) (L : List EJob) (db : DB) (j' : LJob) (h : j' ∈ (L.foldl (launchOne now) db).jobs) :
    (j' ∈ db.jobs ∧ ∀ e ∈ L, e.job.id ≠ j'.id) ∨
      ∃ e ∈ L, ∃ j ∈ db.jobs, e.job.id = j.id ∧ j' = launched now e.mid j := by
  induction L generalizing db with
  | nil => exact Or.inl ⟨h, by simp⟩
  | cons e L ih =>
    have h1 : ∀ j1 ∈ (launchOne now db e).jobs, (j1 ∈ db.jobs ∧ e.job.id ≠ j1.id) ∨
        ∃ j ∈ db.jobs, e.job.id = j.id ∧ j1 = launched now e.mid j := by
      intro j1 hj1
      rw [launchOne_jobs] at hj1
      obtain ⟨j, hj, rfl⟩ := List.mem_map.1 hj1
      by_cases c : j.id = e.job.id
      · rw [if_pos c]; exact Or.inr ⟨j, hj, c.symm, rfl⟩
      · rw [if_neg c]; exact Or.inl ⟨hj, fun h => c h.symm⟩
    rcases ih (launchOne now db e) h with ⟨ha, hb⟩ | ⟨e', he', j, hj, hid, rfl⟩
    · rcases h1 j' ha with ⟨hc, hd⟩ | ⟨j, hj, hid, rfl⟩
      · refine Or.inl ⟨hc, ?_⟩
        intro x hx
        rcases List.mem_cons.1 hx with rfl | hx
        · exact hd
        · exact hb x hx
      · exact Or.inr ⟨e, by simp, j, hj, hid, rfl⟩
    · rcases h1 j hj with ⟨hc, _⟩ | ⟨j0, hj0, hid0, rfl⟩
      · exact Or.inr ⟨e', List.mem_cons_of_mem _ he', j, hc, hid, rfl⟩
      · exact Or.inr ⟨e', List.mem_cons_of_mem _ he', j0, hj0, hid, rfl⟩

theorem launchAll_gres (now : Int) (L : List EJob) (db : DB) : (L.foldl (launchOne now) db).gres = db.gres := by
  induction L generalizing db with
  | nil => rfl
  | cons e L ih => rw [List.foldl_cons, ih, launchOne_gres]

theorem launchAll_frag (now : Int) (L : List EJob) (db : DB) : (L.foldl (launchOne now) db).frag = db.frag := by
  induction L generalizing db with
  | nil => rfl
  | cons e L ih => rw [List.foldl_cons, ih, launchOne_frag]

theorem launchAll_sent (now : Int) (L : List EJob) (db : DB) :
    (L.foldl (launchOne now) db).sent = db.sent ++ L.map (fun e => e.job.id) := by
  induction L generalizing db with
  | nil => simp
  | cons e L ih => rw [List.foldl_cons, ih, launchOne_sent]; simp

theorem launchAll_assigned (now : Int) (L : List EJob) (db : DB) (g : Nat × Nat) :
    g ∈ (L.foldl (launchOne now) db).assigned ↔ g ∈ db.assigned ∨ (g ∈ db.gres ∧ ∃ e ∈ L, g.1 = e.mid) := by
  induction L generalizing db with
  | nil => simp
  | cons e L ih =>
    rw [List.foldl_cons, ih, launchOne_assigned, launchOne_gres, List.mem_append, List.mem_filter]
    simp only [decide_eq_true_eq, List.mem_cons, exists_eq_or_imp]
    constructor
    · rintro ((h | ⟨h1, h2⟩) | ⟨h1, h2⟩)
      · exact Or.inl h
      · exact Or.inr ⟨h1, Or.inl h2⟩
      · exact Or.inr ⟨h1, Or.inr h2⟩
    · rintro (h | ⟨h1, h2 | h2⟩)
      · exact Or.inl (Or.inl h)
      · exact Or.inl (Or.inr ⟨h1, h2⟩)
      · exact Or.inr ⟨h1, h2⟩

theorem launchAll_exists (now : Int) (L : List EJob) (db : DB) (e : EJob) (he : e ∈ L) (j : LJob) (hj : j ∈ db.jobs)
    (hid : e.job.id = j.id) : ∃ j' ∈ (L.foldl (launchOne now) db).jobs, j'.id = j.id ∧ j'.state = "toLaunch" ∧ j'.start = now := by
  have keep : ∀ (L : List EJob) (db : DB) (j : LJob), j ∈ db.jobs → (∃ e ∈ L, e.job.id = j.id) ∨ (j.state = "toLaunch" ∧ j.start = now) →
      ∃ j' ∈ (L.foldl (launchOne now) db).jobs, j'.id = j.id ∧ j'.state = "toLaunch" ∧ j'.start = now := by
    intro L
    induction L with
    | nil =>
      intro db j hj h
      rcases h with ⟨_, h, _⟩ | h
      · cases h
      · exact ⟨j, hj, rfl, h⟩
    | cons e L ih =>
      intro db j hj h
      rw [List.foldl_cons]
      by_cases c : j.id = e.job.id
      · obtain ⟨j', h1, h2, h3⟩ := ih (launchOne now db e) (launched now e.mid j)
          (by rw [launchOne_jobs]; exact List.mem_map.2 ⟨j, hj, by rw [if_pos c]⟩) (Or.inr ⟨rfl, rfl⟩)
        exact ⟨j', h1, h2, h3⟩
      · refine ih (launchOne now db e) j (by rw [launchOne_jobs]; exact List.mem_map.2 ⟨j, hj, by rw [if_neg c]⟩) ?_
        rcases h with ⟨x, hx, hxid⟩ | h
        · rcases List.mem_cons.1 hx with rfl | hx
          · exact absurd hxid.symm c
          · exact Or.inl ⟨x, hx, hxid⟩
        · exact Or.inr h
  exact keep L db j hj (Or.inl ⟨e, he, hid⟩)

/-! ## Best-effort jobs to kill -/

theorem inner_lookup (b : LJob) (res : List Nat) (d : List (Nat × LJob)) (k : Nat) :
    (res.foldl (fun d k => dictSet k b d) d).lookup k = if k ∈ res then some b else d.lookup k := by
  induction res generalizing d with
  | nil => simp
  | cons r res ih =>
    rw [List.foldl_cons, ih, lookup_dictSet]
    by_cases h1 : k ∈ res <;> by_cases h2 : k = r <;> simp [h1, h2]

/-- A best-effort job is found on `k` exactly when one holds it. -/
theorem beMap_lookup (sched : List EJob) (k : Nat) :
    (∀ b, (beMap sched).lookup k = some b → HeldByBestEffort sched k b) ∧
    (∀ b, HeldByBestEffort sched k b → ((beMap sched).lookup k).isSome = true) := by
  unfold beMap
  have gen : ∀ (sched : List EJob) (d : List (Nat × LJob)),
      let r := (sched.foldl (fun d e => if ((tjob e.job).types.lookup (txt "besteffort")).isSome
        then e.res.foldl (fun d k => dictSet k e.job d) d else d) d).lookup k
      (∀ b, r = some b → HeldByBestEffort sched k b ∨ d.lookup k = some b) ∧
      (∀ b, HeldByBestEffort sched k b ∨ d.lookup k = some b → r.isSome = true) := by
    intro sched
    induction sched with
    | nil =>
      intro d
      dsimp only [List.foldl_nil]
      refine ⟨fun b h => Or.inr h, ?_⟩
      rintro b (⟨e, he, _⟩ | h)
      · cases he
      · simp [h]
    | cons e sched ih =>
      intro d
      dsimp only [List.foldl_cons]
      obtain ⟨i1, i2⟩ := ih (if ((tjob e.job).types.lookup (txt "besteffort")).isSome
        then e.res.foldl (fun d k => dictSet k e.job d) d else d)
      refine ⟨?_, ?_⟩
      · intro b hb
        rcases i1 b hb with ⟨x, hx, h⟩ | h
        · exact Or.inl ⟨x, List.mem_cons_of_mem _ hx, h⟩
        · split at h
          · rename_i hbe
            rw [inner_lookup] at h
            split at h
            · rename_i hk
              cases h
              exact Or.inl ⟨e, by simp, rfl, hbe, hk⟩
            · exact Or.inr h
          · exact Or.inr h
      · rintro b (⟨x, hx, h1, h2, h3⟩ | h)
        · rcases List.mem_cons.1 hx with rfl | hx
          · subst h1
            refine i2 x.job (Or.inr ?_)
            rw [if_pos h2, inner_lookup, if_pos h3]
          · exact i2 b (Or.inl ⟨x, hx, h1, h2, h3⟩)
        · by_cases hbe : ((tjob e.job).types.lookup (txt "besteffort")).isSome = true
          · by_cases hk : k ∈ e.res
            · exact i2 e.job (Or.inr (by rw [if_pos hbe, inner_lookup, if_pos hk]))
            · exact i2 b (Or.inr (by rw [if_pos hbe, inner_lookup, if_neg hk]; exact h))
          · exact i2 b (Or.inr (by rw [if_neg hbe]; exact h))
  obtain ⟨h1, h2⟩ := gen sched []
  refine ⟨fun b hb => ?_, fun b hb => h2 b (Or.inl hb)⟩
  rcases h1 b hb with h | h
  · exact h
  · cases h

theorem ridMap_keys (s : RS) (rows : List Row) (d : List (Nat × Nat)) (k : Nat) :
    ((rows.foldl (fun d r => dictSet (s.i2o r.rid) r.job.id d) d).lookup k).isSome = true ↔
      (∃ r ∈ rows, s.i2o r.rid = k) ∨ (d.lookup k).isSome = true := by
  induction rows generalizing d with
  | nil => simp
  | cons r rs ih =>
    rw [List.foldl_cons, ih, lookup_dictSet]
    by_cases h : k = s.i2o r.rid
    · simp [h]
    · have h' : ¬ s.i2o r.rid = k := fun e => h e.symm
      simp [h, h']

theorem mem_lookup {κ ν : Type} [BEq κ] [LawfulBEq κ] (d : List (κ × ν)) (k : κ) (h : (d.lookup k).isSome = true) :
    ∃ v, (k, v) ∈ d := by
  induction d with
  | nil => simp at h
  | cons p d ih =>
    obtain ⟨a, b⟩ := p
    by_cases hk : k = a
    · exact ⟨b, by simp [hk]⟩
    · have : (k == a) = false := by simpa using hk
      rw [List.lookup, this] at h
      obtain ⟨v, hv⟩ := ih h
      exact ⟨v, List.mem_cons_of_mem _ hv⟩

theorem mem_dictSet {κ ν : Type} [DecidableEq κ] (k : κ) (v : ν) (d : List (κ × ν)) (x : κ × ν) (h : x ∈ dictSet k v d) :
    x = (k, v) ∨ x ∈ d := by
  induction d with
  | nil => simp [dictSet] at h; exact Or.inl h
  | cons p d ih =>
    obtain ⟨a, b⟩ := p
    unfold dictSet at h
    split at h
    · rename_i ha
      rcases List.mem_cons.1 h with h | h
      · left; rw [h, ha]
      · exact Or.inr (List.mem_cons_of_mem _ h)
    · rcases List.mem_cons.1 h with h | h
      · exact Or.inr (by simp [h])
      · rcases ih h with h | h
        · exact Or.inl h
        · exact Or.inr (List.mem_cons_of_mem _ h)

theorem ridMap_mem (s : RS) (rows : List Row) (d : List (Nat × Nat)) (x : Nat × Nat)
    (h : x ∈ rows.foldl (fun d r => dictSet (s.i2o r.rid) r.job.id d) d) :
    (∃ r ∈ rows, x = (s.i2o r.rid, r.job.id)) ∨ x ∈ d := by
  induction rows generalizing d with
  | nil => exact Or.inr h
  | cons r rs ih =>
    rw [List.foldl_cons] at h
    rcases ih _ h with ⟨q, hq, h⟩ | h
    · exact Or.inl ⟨q, List.mem_cons_of_mem _ hq, h⟩
    · rcases mem_dictSet _ _ _ _ h with h | h
      · exact Or.inl ⟨r, by simp, h⟩
      · exact Or.inr h

/-- The types read from the database never hold `timesharing`. -/
theorem not_timesharing (b : LJob) (t : TJob) : isTimesharing (tjob b) t = false := by
  unfold isTimesharing tjob typesOf
  cases h : jobTypes b.types Info.empty with
  | none => rfl
  | some i =>
    have := jobTypes_special b.types Info.empty i h (txt "timesharing") (Or.inl rfl) rfl
    simp only [Option.map_some, Option.getD_some]
    rw [this]

theorem toKill_spec (ej : List EJob) (be : List (Nat × LJob)) (items : List (Nat × Nat)) (killed : List Nat)
    (hej : ∀ x ∈ items, ∃ e ∈ ej, e.job.id = x.2) (hck : ∀ k b, be.lookup k = some b → b.checkpoint = 0) :
    ∃ out, toKill ej be items killed = some out ∧
      ∀ i, i ∈ out ↔ i ∈ killed ∨ ∃ x ∈ items, ∃ b, be.lookup x.1 = some b ∧ b.id = i := by
  induction items generalizing killed with
  | nil => exact ⟨killed, rfl, by simp⟩
  | cons x items ih =>
    obtain ⟨rid, jid⟩ := x
    have hej' : ∀ x ∈ items, ∃ e ∈ ej, e.job.id = x.2 := fun x hx => hej x (List.mem_cons_of_mem _ hx)
    unfold toKill
    cases hb : be.lookup rid with
    | none =>
      obtain ⟨out, h1, h2⟩ := ih killed hej'
      refine ⟨out, h1, fun i => ?_⟩
      rw [h2]
      simp [hb]
    | some b =>
      dsimp only
      cases hf : ej.find? (fun e => decide (e.job.id = jid)) with
      | none =>
        obtain ⟨e, he, hid⟩ := hej (rid, jid) (by simp)
        have := List.find?_eq_none.1 hf e he
        simp [hid] at this
      | some e =>
        dsimp only
        rw [not_timesharing b]
        simp only [Bool.false_eq_true, if_false]
        by_cases hk : b.id ∈ killed
        · rw [if_pos hk]
          obtain ⟨out, h1, h2⟩ := ih killed hej'
          refine ⟨out, h1, fun i => ?_⟩
          rw [h2]
          constructor
          · rintro (h | ⟨x, hx, h⟩)
            · exact Or.inl h
            · exact Or.inr ⟨x, List.mem_cons_of_mem _ hx, h⟩
          · rintro (h | ⟨x, hx, b', h, h'⟩)
            · exact Or.inl h
            · rcases List.mem_cons.1 hx with rfl | hx
              · rw [hb] at h; cases h; exact Or.inl (h' ▸ hk)
              · exact Or.inr ⟨x, hx, b', h, h'⟩
        · rw [if_neg hk, if_neg (by rw [hck rid b hb]; decide)]
          obtain ⟨out, h1, h2⟩ := ih (killed ++ [b.id]) hej'
          refine ⟨out, h1, fun i => ?_⟩
          rw [h2]
          constructor
          · rintro (h | ⟨x, hx, h⟩)
            · rcases List.mem_append.1 h with h | h
              · exact Or.inl h
              · exact Or.inr ⟨(rid, jid), by simp, b, hb, (List.mem_singleton.1 h).symm⟩
            · exact Or.inr ⟨x, List.mem_cons_of_mem _ hx, h⟩
          · rintro (h | ⟨x, hx, b', h, h'⟩)
            · exact Or.inl (List.mem_append.2 (Or.inl h))
            · rcases List.mem_cons.1 hx with rfl | hx
              · rw [hb] at h; cases h
                exact Or.inl (List.mem_append.2 (Or.inr (by simp [h'])))
              · exact Or.inr ⟨x, hx, b', h, h'⟩

theorem killJob_fold (l : List Nat) (db : DB) :
    (l.foldl killJob db).jobs = db.jobs ∧ (l.foldl killJob db).assigned = db.assigned ∧ (l.foldl killJob db).sent = db.sent ∧
    ∀ i, i ∈ (l.foldl killJob db).frag ↔ i ∈ db.frag ∨ i ∈ l := by
  induction l generalizing db with
  | nil => simp
  | cons k l ih =>
    rw [List.foldl_cons]
    obtain ⟨h1, h2, h3, h4⟩ := ih (killJob db k)
    refine ⟨h1, h2, h3, fun i => ?_⟩
    rw [h4]
    unfold killJob
    dsimp only
    by_cases hk : k ∈ db.frag
    · rw [if_pos hk]
      simp only [List.mem_cons]
      constructor
      · rintro (h | h)
        · exact Or.inl h
        · exact Or.inr (Or.inr h)
      · rintro (h | h | h)
        · exact Or.inl h
        · exact Or.inl (h ▸ hk)
        · exact Or.inr h
    · rw [if_neg hk]
      simp only [List.mem_append, List.mem_cons, List.not_mem_nil, or_false]
      constructor
      · rintro ((h | h) | h)
        · exact Or.inl h
        · exact Or.inr (Or.inl h)
        · exact Or.inr (Or.inr h)
      · rintro (h | h | h)
        · exact Or.inl (Or.inl h)
        · exact Or.inl (Or.inr h)
        · exact Or.inr h

/-- The extraction keeps every job of the rows. -/
theorem extract_ids (s : RS) (sec : Int) (rows : List Row) (hw : ∀ r ∈ rows, r.job.state ≠ "Suspended") (r : Row) (hr : r ∈ rows) :
    ∃ e ∈ extract s sec rows, e.job.id = r.job.id := by
  obtain ⟨x, hx, h1, _⟩ := runs_complete rows r hr
  unfold extract
  dsimp only
  have hws : ∀ e ∈ (runs rows).map (mkJob s sec), e.job.state ≠ "Suspended" := by
    intro x hx
    obtain ⟨y, hy, rfl⟩ := List.mem_map.1 hx
    exact hw _ (runs_sound rows y hy).1
  rw [treatLast_waiting s _ hws]
  have hm : mkJob s sec x ∈ (runs rows).map (mkJob s sec) := List.mem_map.2 ⟨x, hx, rfl⟩
  exact ⟨_, List.mem_map.2 ⟨_, hm, rfl⟩, (lastOf_mem _ _ hm).2.trans h1⟩

/-- The two ends of a round. -/
theorem launchRound_cases (s : RS) (sec now : Int) (rows : List Row) (sched : List EJob) (db db' : DB) (code : Int)
    (h : launchRound s sec now rows sched db = some (db', code)) :
    (code = 0 ∧ toKill (extract s sec rows) (beMap sched) (ridMap s rows) [] = some [] ∧
      db' = ((extract s sec rows).filter (ready s now)).foldl (launchOne now) db) ∨
    (code = 2 ∧ ∃ k ks, toKill (extract s sec rows) (beMap sched) (ridMap s rows) [] = some (k :: ks) ∧
      db' = (k :: ks).foldl killJob db) := by
  unfold launchRound at h
  dsimp only at h
  cases ht : toKill (extract s sec rows) (beMap sched) (ridMap s rows) [] with
  | none => rw [ht] at h; cases h
  | some l =>
    rw [ht] at h
    cases l with
    | nil =>
      have h := Option.some.inj h
      cases h
      exact Or.inl ⟨rfl, rfl, rfl⟩
    | cons k ks =>
      have h := Option.some.inj h
      cases h
      exact Or.inr ⟨rfl, k, ks, rfl, rfl⟩

/-! ## C32 -/

/-- C32. Only due jobs are launched: a job that a round puts in toLaunch was waiting, has a prediction (the moldable
assigned to it) whose start date is not in the future, is started now, and gets the resources of this prediction. No
hypothesis on the order of the answer of the database. -/
theorem launched_due (s : RS) (sec now date : Int) (rows : List Row) (sched : List EJob) (db db' : DB) (code : Int)
    (hans : Answer db date rows) (h : launchRound s sec now rows sched db = some (db', code))
    (j' : LJob) (hj' : j' ∈ db'.jobs) (hst : j'.state = "toLaunch") (hold : ∀ j ∈ db.jobs, j.state ≠ "toLaunch") :
    code = 0 ∧ (∃ j ∈ db.jobs, j.id = j'.id ∧ j.state = "Waiting") ∧
      (∃ t, (j'.mold, t) ∈ db.preds ∧ t ≤ now) ∧ (∃ m ∈ db.molds, m.id = j'.mold ∧ m.job = j'.id) ∧
      j'.start = now ∧ j'.id ∈ db'.sent ∧ (∀ g ∈ db.gres, g.1 = j'.mold → g ∈ db'.assigned) := by
  rcases launchRound_cases _ _ _ _ _ _ _ _ h with ⟨rfl, _, rfl⟩ | ⟨rfl, k, ks, _, rfl⟩
  · refine ⟨rfl, ?_⟩
    rcases launchAll_jobs now _ db j' hj' with ⟨hm, _⟩ | ⟨e, he, j, hj, hid, rfl⟩
    · exact absurd hst (hold j' hm)
    · obtain ⟨he1, he2⟩ := List.mem_filter.1 he
      have hw : ∀ r ∈ rows, r.job.state ≠ "Suspended" := by
        intro r hr
        rw [((hans r).1 hr).2.2]; decide
      obtain ⟨r, hr, e1, e2, e3, _⟩ := extract_sound s sec rows hw e he1
      obtain ⟨hjn, _, hwait⟩ := (hans r).1 hr
      obtain ⟨hp, ⟨m, hm, hm1, hm2, _⟩, hrj, _⟩ := (mem_join db r).1 hjn
      have hready : e.start ≤ now := by
        unfold ready at he2
        simp at he2
        exact he2.1
      refine ⟨⟨r.job, hrj, ?_, hwait⟩, ⟨e.start, ?_, hready⟩, ⟨m, hm, ?_, ?_⟩, rfl, ?_, ?_⟩
      · rw [← e1, hid]; rfl
      · show (e.mid, e.start) ∈ _
        rw [e2, e3]; exact hp
      · show m.id = e.mid
        rw [e2]; exact hm1
      · show m.job = j.id
        rw [← hid, e1]; exact hm2
      · rw [launchAll_sent, List.mem_append]
        right
        exact List.mem_map.2 ⟨e, he, hid⟩
      · intro g hg hge
        rw [launchAll_assigned]
        exact Or.inr ⟨hg, e, he, hge⟩
  · obtain ⟨h1, _⟩ := killJob_fold (k :: ks) db
    rw [h1] at hj'
    exact absurd hst (hold j' hj')

/-- C32, partial: when the database returns the rows of a job together, none of the resources of a launched job is
Absent; so all of them are Alive if none is Dead or Suspected. Missing: a Dead or Suspected resource, or an answer which
mixes the rows of the jobs (the query has no order). -/
theorem launched_alive_partial (susp labels : List String) (rs : List Res) (s : RS) (hn : (rs.map Res.id).Nodup)
    (hb : build susp labels rs = some s) (sec now date : Int) (rows : List Row) (sched : List EJob) (db db' : DB) (code : Int)
    (hans : Answer db date rows) (hg : Grouped rows)
    (h : launchRound s sec now rows sched db = some (db', code))
    (j' : LJob) (hj' : j' ∈ db'.jobs) (hst : j'.state = "toLaunch") (hold : ∀ j ∈ db.jobs, j.state ≠ "toLaunch")
    (g : Nat × Nat) (hgm : g ∈ db.gres) (hgj : g.1 = j'.mold) (r : Res) (hr : r ∈ rs) (hrg : r.id = g.2)
    (husable : r.state = "Alive" ∨ r.state = "Absent") : r.state = "Alive" := by
  rcases launchRound_cases _ _ _ _ _ _ _ _ h with ⟨rfl, _, rfl⟩ | ⟨rfl, k, ks, _, rfl⟩
  · rcases launchAll_jobs now _ db j' hj' with ⟨hm, _⟩ | ⟨e, he, j, hj, hid, rfl⟩
    · exact absurd hst (hold j' hm)
    · obtain ⟨he1, he2⟩ := List.mem_filter.1 he
      have hw : ∀ r ∈ rows, r.job.state ≠ "Suspended" := by
        intro r hr
        rw [((hans r).1 hr).2.2]; decide
      rw [extract_grouped s sec rows hg hw] at he1
      obtain ⟨x, hx, rfl⟩ := List.mem_map.1 he1
      obtain ⟨hx1, _, _⟩ := runs_sound rows x hx
      obtain ⟨hjn, hdate, hwait⟩ := (hans x.1).1 hx1
      obtain ⟨hp, hm, hrj, _⟩ := (mem_join db x.1).1 hjn
      have hrow : (⟨x.1.job, x.1.mid, x.1.start, x.1.walltime, g.2⟩ : Row) ∈ rows := by
        rw [hans]
        refine ⟨(mem_join db _).2 ⟨hp, hm, hrj, ?_⟩, hdate, hwait⟩
        have : g = (x.1.mid, g.2) := by
          have : g.1 = x.1.mid := hgj
          rw [← this]
        show (x.1.mid, g.2) ∈ db.gres
        rw [← this]; exact hgm
      obtain ⟨y, hy, hyid, hyr⟩ := runs_complete rows _ hrow
      have hxy : x = y := by
        have hnd := runs_nodup rows hg
        obtain ⟨i, hi, ei⟩ := List.getElem_of_mem hx
        obtain ⟨k, hk, ek⟩ := List.getElem_of_mem hy
        have : i = k := by
          refine (List.getElem_inj (h₀ := by simpa using hi) (h₁ := by simpa using hk) hnd).1 ?_
          simp [ei, ek, hyid]
        subst this
        exact ei.symm.trans ek
      subst hxy
      rcases husable with ha | ha
      · exact ha
      · exfalso
        unfold ready at he2
        simp only [Bool.and_eq_true, List.all_eq_true] at he2
        have h2 := he2.2 (s.i2o g.2) (List.mem_map.2 ⟨g.2, hyr, rfl⟩)
        obtain ⟨k, hk, hrk⟩ := List.getElem_of_mem hr
        have hk' : rs[k]? = some r := by rw [List.getElem?_eq_getElem hk, hrk]
        have h3 := ((numbering_inverse hn hb).2.2.1 k r hk' (Or.inr ha)).1
        have h4 := ((resource_sets hn hb).1 k).2 ⟨r, hk', ha⟩
        rw [← hrg, h3] at h2
        simp [h4] at h2
  · obtain ⟨h1, _⟩ := killJob_fold (k :: ks) db
    rw [h1] at hj'
    exact absurd hst (hold j' hj')

/-- C32. If a resource of a job to launch (or to be launched within the kill duration) is held by a best-effort job,
nothing is launched in this round and a best-effort job holding the resource is asked to be deleted; nobody else is. -/
theorem besteffort_killed (s : RS) (sec now date : Int) (rows : List Row) (sched : List EJob) (db : DB)
    (hans : Answer db date rows) (hck : ∀ k b, HeldByBestEffort sched k b → b.checkpoint = 0) :
    ∃ db' code, launchRound s sec now rows sched db = some (db', code) ∧
      ((∃ r ∈ rows, ∃ b, HeldByBestEffort sched (s.i2o r.rid) b) →
        code = 2 ∧ db'.jobs = db.jobs ∧ db'.assigned = db.assigned ∧ db'.sent = db.sent) ∧
      (∀ r ∈ rows, (∃ b, HeldByBestEffort sched (s.i2o r.rid) b) →
        ∃ b, HeldByBestEffort sched (s.i2o r.rid) b ∧ b.id ∈ db'.frag) ∧
      (∀ i ∈ db'.frag, i ∈ db.frag ∨ ∃ r ∈ rows, ∃ b, HeldByBestEffort sched (s.i2o r.rid) b ∧ b.id = i) ∧
      ((¬ ∃ r ∈ rows, ∃ b, HeldByBestEffort sched (s.i2o r.rid) b) → code = 0) := by
  have hw : ∀ r ∈ rows, r.job.state ≠ "Suspended" := by
    intro r hr
    rw [((hans r).1 hr).2.2]; decide
  obtain ⟨out, ho, hm⟩ := toKill_spec (extract s sec rows) (beMap sched) (ridMap s rows) []
    (by
      intro x hx
      rcases ridMap_mem s rows [] x hx with ⟨r, hr, rfl⟩ | h
      · exact extract_ids s sec rows hw r hr
      · cases h)
    (fun k b hb => hck k b ((beMap_lookup sched k).1 b hb))
  have hheld : ∀ r ∈ rows, (∃ b, HeldByBestEffort sched (s.i2o r.rid) b) →
      ∃ b, HeldByBestEffort sched (s.i2o r.rid) b ∧ b.id ∈ out := by
    rintro r hr ⟨b, hb⟩
    have h1 := (beMap_lookup sched (s.i2o r.rid)).2 b hb
    obtain ⟨b', hb'⟩ := Option.isSome_iff_exists.1 h1
    have h2 := (ridMap_keys s rows [] (s.i2o r.rid)).2 (Or.inl ⟨r, hr, rfl⟩)
    obtain ⟨v, hv⟩ := mem_lookup _ _ h2
    exact ⟨b', (beMap_lookup sched _).1 b' hb', (hm b'.id).2 (Or.inr ⟨_, hv, b', hb', rfl⟩)⟩
  have honly : ∀ i ∈ out, ∃ r ∈ rows, ∃ b, HeldByBestEffort sched (s.i2o r.rid) b ∧ b.id = i := by
    intro i hi
    rcases (hm i).1 hi with h | ⟨x, hx, b, hb, hid⟩
    · cases h
    · rcases ridMap_mem s rows [] x hx with ⟨r, hr, rfl⟩ | h
      · exact ⟨r, hr, b, (beMap_lookup sched _).1 b hb, hid⟩
      · cases h
  cases out with
  | nil =>
    refine ⟨((extract s sec rows).filter (ready s now)).foldl (launchOne now) db, 0, ?_, ?_, ?_, ?_, fun _ => rfl⟩
    · unfold launchRound
      dsimp only
      rw [ho]
    · rintro ⟨r, hr, hb⟩
      obtain ⟨b, _, h⟩ := hheld r hr hb
      cases h
    · intro r hr hb
      obtain ⟨b, _, h⟩ := hheld r hr hb
      cases h
    · intro i hi
      rw [launchAll_frag] at hi
      exact Or.inl hi
  | cons k ks =>
    obtain ⟨h1, h2, h3, h4⟩ := killJob_fold (k :: ks) db
    refine ⟨(k :: ks).foldl killJob db, 2, ?_, fun _ => ⟨rfl, h1, h2, h3⟩, ?_, ?_, ?_⟩
    · unfold launchRound
      dsimp only
      rw [ho]
    · intro r hr hb
      obtain ⟨b, hb, h⟩ := hheld r hr hb
      exact ⟨b, hb, (h4 _).2 (Or.inr h)⟩
    · intro i hi
      rcases (h4 i).1 hi with h | h
      · exact Or.inl h
      · exact Or.inr (honly i h)
    · intro hno
      obtain ⟨r, hr, b, hb, _⟩ := honly k (by simp)
      exact absurd ⟨r, hr, b, hb⟩ hno

/-- C32, completeness. If nobody has to be killed, every waiting job which has a prediction not in the future, with
resources none of which is Absent, is launched in this round (rows of a job together, one prediction per job). -/
theorem due_launched (susp labels : List String) (rs : List Res) (s : RS) (hn : (rs.map Res.id).Nodup)
    (hb : build susp labels rs = some s) (sec now date : Int) (rows : List Row) (sched : List EJob) (db db' : DB)
    (hans : Answer db date rows) (hg : Grouped rows) (hnow : now ≤ date)
    (hone : ∀ r1 ∈ rows, ∀ r2 ∈ rows, r1.job.id = r2.job.id → r1.start = r2.start)
    (h : launchRound s sec now rows sched db = some (db', 0))
    (j : LJob) (hj : j ∈ db.jobs) (hwait : j.state = "Waiting") (m : Mold) (hm : m ∈ db.molds) (hmj : m.job = j.id)
    (t : Int) (hp : (m.id, t) ∈ db.preds) (ht : t ≤ now) (hres : ∃ g ∈ db.gres, g.1 = m.id)
    (halive : ∀ r ∈ rows, r.job.id = j.id → ∃ x ∈ rs, x.id = r.rid ∧ x.state = "Alive") :
    ∃ j' ∈ db'.jobs, j'.id = j.id ∧ j'.state = "toLaunch" ∧ j'.start = now := by
  rcases launchRound_cases _ _ _ _ _ _ _ _ h with ⟨_, _, rfl⟩ | ⟨h0, _⟩
  · have hw : ∀ r ∈ rows, r.job.state ≠ "Suspended" := by
      intro r hr
      rw [((hans r).1 hr).2.2]; decide
    obtain ⟨g, hgm, hgid⟩ := hres
    have hrow : (⟨j, m.id, t, m.walltime, g.2⟩ : Row) ∈ rows := by
      rw [hans]
      refine ⟨(mem_join db _).2 ⟨hp, ⟨m, hm, rfl, hmj, rfl⟩, hj, ?_⟩, by simp only; omega, hwait⟩
      show (m.id, g.2) ∈ db.gres
      rw [← hgid]; exact hgm
    obtain ⟨x, hx, hxid, hxr⟩ := runs_complete rows _ hrow
    obtain ⟨hx1, hx2, hx3⟩ := runs_sound rows x hx
    have hmem : mkJob s sec x ∈ extract s sec rows := by
      rw [extract_grouped s sec rows hg hw]
      exact List.mem_map.2 ⟨x, hx, rfl⟩
    refine launchAll_exists now _ db (mkJob s sec x) (List.mem_filter.2 ⟨hmem, ?_⟩) j hj hxid
    unfold ready
    simp only [Bool.and_eq_true, decide_eq_true_eq, List.all_eq_true]
    refine ⟨?_, ?_⟩
    · have := hone x.1 hx1 _ hrow hxid
      show x.1.start ≤ now
      rw [this]; exact ht
    · intro k hk
      obtain ⟨i, hi, rfl⟩ := List.mem_map.1 hk
      obtain ⟨q, hq, hq1, hq2⟩ := hx3 i hi
      obtain ⟨y, hy, hy1, hy2⟩ := halive q hq (hq1.trans hxid)
      obtain ⟨k, hk, hyk⟩ := List.getElem_of_mem hy
      have hk' : rs[k]? = some y := by rw [List.getElem?_eq_getElem hk, hyk]
      have h3 := ((numbering_inverse hn hb).2.2.1 k y hk' (Or.inl hy2)).1
      rw [← hq2, ← hy1, h3]
      simp only [Bool.not_eq_true', List.contains_eq_mem, decide_eq_false_iff_not]
      intro hab
      obtain ⟨z, hz, hz2⟩ := ((resource_sets hn hb).1 k).1 hab
      rw [hk'] at hz
      cases hz
      rw [hy2] at hz2
      exact absurd hz2 (by decide)
  · exact absurd h0 (by decide)

end Oar.Launch
