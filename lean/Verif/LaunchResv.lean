import Verif.LaunchProps

/-!
# C32 (witnesses), C33, C36, C43, C63: late reservations, Gantt tables, suspended jobs
-/

namespace Oar.Launch

open Oar.ResSet Oar.JobTypes Oar.Tools

/-! ## Concrete rounds -/

/-- Four resources: two Alive, one Absent, one Suspected. -/
def exR : List Res := [⟨5, "Alive", "default", 0, "n1", fun _ => ""⟩, ⟨7, "Alive", "default", 0, "n1", fun _ => ""⟩,
  ⟨9, "Absent", "default", 0, "n2", fun _ => ""⟩, ⟨11, "Suspected", "default", 0, "n3", fun _ => ""⟩]

def exS : RS := (build ["default"] ["id"] exR).getD (init [])

theorem exS_build : (exR.map Res.id).Nodup ∧ build ["default"] ["id"] exR = some exS := ⟨by decide, rfl⟩

/-- A waiting job of the examples. -/
def wj (id : Nat) (resv : String) : LJob := ⟨id, "Waiting", resv, "default", "u", "n", [], 0, false, 0, 0, 0⟩

/-- Three waiting jobs: 1 is due on resources 5 and 7, 2 is due on the Absent resource, 3 starts later. -/
def exDB : DB := ⟨[wj 1 "None", wj 2 "None", wj 3 "None"], [⟨10, 1, 60⟩, ⟨20, 2, 60⟩, ⟨30, 3, 60⟩],
  [(10, 90), (20, 100), (30, 110)], [(10, 5), (10, 7), (20, 9), (30, 5)], [], [], [], []⟩

def exRows : List Row := [⟨wj 1 "None", 10, 90, 60, 5⟩, ⟨wj 1 "None", 10, 90, 60, 7⟩, ⟨wj 2 "None", 20, 100, 60, 9⟩,
  ⟨wj 3 "None", 30, 110, 60, 5⟩]

theorem exAnswer : Answer exDB 110 exRows := by
  intro r
  have h : (join exDB).filter (toLaunchRow 110) = exRows := by decide
  rw [← h, List.mem_filter]
  unfold toLaunchRow
  simp

/-- The hypotheses of `launched_due`, `launched_alive_partial` and `due_launched` hold for this round: only job 1 is
launched. -/
example : Answer exDB 110 exRows ∧ Grouped exRows ∧ (∀ j ∈ exDB.jobs, j.state ≠ "toLaunch") ∧
    (launchRound exS 60 100 exRows [] exDB).map (fun p => (p.2, p.1.sent, p.1.assigned, p.1.jobs.map (fun j => j.state))) =
      some (0, [1], [(10, 5), (10, 7)], ["toLaunch", "Waiting", "Waiting"]) :=
  ⟨exAnswer, by decide, by decide, by decide⟩

/-- A best-effort job runs on resource 7. -/
def exBE : EJob := ⟨{ wj 50 "None" with state := "Running", types := [txt "besteffort"] }, 500, 10, 1000, [1]⟩

/-- The hypotheses of `besteffort_killed` hold: here nothing is launched and job 50 is to be deleted. -/
example : (launchRound exS 60 100 exRows [exBE] exDB).map (fun p => (p.2, p.1.sent, p.1.frag, p.1.events)) =
    some (2, [], [50], [("BESTEFFORT_KILL", 50)]) ∧ HeldByBestEffort [exBE] (exS.i2o 7) exBE.job ∧ exBE.job.checkpoint = 0 :=
  ⟨by decide, ⟨exBE, by simp, rfl, by decide, by decide⟩, rfl⟩

/-- C32, violated: job 1 is launched on resource 11, which is Suspected (its number in the set of resources is that of
the first resource); and when the database mixes the rows of two jobs, job 1 is launched although its resource 9 is
Absent, and it is launched twice. -/
theorem launched_alive_violated :
    (∃ (db : DB) (rows : List Row), Answer db 100 rows ∧ (11, "Suspected") ∈ exR.map (fun r => (r.id, r.state)) ∧
      (launchRound exS 60 100 rows [] db).map (fun p => (p.2, p.1.sent, p.1.assigned)) = some (0, [1], [(10, 11)])) ∧
    (∃ (db : DB) (rows : List Row), Answer db 100 rows ∧ (9, "Absent") ∈ exR.map (fun r => (r.id, r.state)) ∧
      (launchRound exS 60 100 rows [] db).map (fun p => (p.2, p.1.sent)) = some (0, [1, 2, 1]) ∧ (10, 9) ∈ db.gres) := by
  refine ⟨⟨⟨[wj 1 "None"], [⟨10, 1, 60⟩], [(10, 90)], [(10, 11)], [], [], [], []⟩, [⟨wj 1 "None", 10, 90, 60, 11⟩], ?_,
    by decide, by decide⟩, ⟨⟨[wj 1 "None", wj 2 "None"], [⟨10, 1, 60⟩, ⟨20, 2, 60⟩], [(10, 90), (20, 90)],
      [(10, 9), (20, 7), (10, 5)], [], [], [], []⟩,
      [⟨wj 1 "None", 10, 90, 60, 9⟩, ⟨wj 2 "None", 20, 90, 60, 7⟩, ⟨wj 1 "None", 10, 90, 60, 5⟩], ?_, by decide, by decide,
      by decide⟩⟩
  · intro r
    have h : (join ⟨[wj 1 "None"], [⟨10, 1, 60⟩], [(10, 90)], [(10, 11)], [], [], [], []⟩).filter (toLaunchRow 100) =
        [⟨wj 1 "None", 10, 90, 60, 11⟩] := by decide
    rw [← h, List.mem_filter]
    unfold toLaunchRow
    simp
  · intro r
    have h : (join ⟨[wj 1 "None", wj 2 "None"], [⟨10, 1, 60⟩, ⟨20, 2, 60⟩], [(10, 90), (20, 90)],
      [(10, 9), (20, 7), (10, 5)], [], [], [], []⟩).filter (toLaunchRow 100) =
        [⟨wj 1 "None", 10, 90, 60, 9⟩, ⟨wj 1 "None", 10, 90, 60, 5⟩, ⟨wj 2 "None", 20, 90, 60, 7⟩] := by decide
    have h2 : r ∈ [(⟨wj 1 "None", 10, 90, 60, 9⟩ : Row), ⟨wj 2 "None", 20, 90, 60, 7⟩, ⟨wj 1 "None", 10, 90, 60, 5⟩] ↔
        r ∈ [(⟨wj 1 "None", 10, 90, 60, 9⟩ : Row), ⟨wj 1 "None", 10, 90, 60, 5⟩, ⟨wj 2 "None", 20, 90, 60, 7⟩] := by
      simp only [List.mem_cons, List.not_mem_nil, or_false]
      constructor
      · rintro (h | h | h)
        · exact Or.inl h
        · exact Or.inr (Or.inr h)
        · exact Or.inr (Or.inl h)
      · rintro (h | h | h)
        · exact Or.inl h
        · exact Or.inr (Or.inr h)
        · exact Or.inr (Or.inl h)
    rw [h2, ← h, List.mem_filter]
    unfold toLaunchRow
    simp

/-- C32, violated: when the best-effort job has a checkpoint signal, the round raises: nobody is killed or launched. -/
theorem checkpoint_raises_violated : ∃ (db : DB) (rows : List Row) (be : EJob), Answer db 110 rows ∧
    be.job.checkpoint = 1 ∧ HeldByBestEffort [be] (exS.i2o 7) be.job ∧ launchRound exS 60 100 rows [be] db = none := by
  refine ⟨exDB, exRows, { exBE with job := { exBE.job with checkpoint := 1 } }, exAnswer, rfl, ?_, by decide⟩
  exact ⟨_, List.mem_singleton.2 rfl, rfl, by decide, by decide⟩

/-! ## C33: late reservations -/

/-- A reservation launched after its date. -/
def late (now : Int) (e : EJob) : Prop := e.job.reservation = "Scheduled" ∧ e.start < now

instance (now : Int) (e : EJob) : Decidable (late now e) := by unfold late; infer_instance

theorem launchOne_molds (now : Int) (db : DB) (e : EJob) : (launchOne now db e).molds =
    if late now e then (setMaxTime db e.mid (e.walltime - (now - e.start))).molds else db.molds := by
  unfold launchOne
  by_cases h : e.job.reservation = "Scheduled" ∧ e.start < now
  · rw [if_pos h, if_pos (show late now e from h)]; rfl
  · rw [if_neg h, if_neg (show ¬ late now e from h)]; rfl

theorem launchOne_preds (now : Int) (db : DB) (e : EJob) : (launchOne now db e).preds =
    if late now e then (setGanttStart db e.mid now).preds else db.preds := by
  unfold launchOne
  by_cases h : e.job.reservation = "Scheduled" ∧ e.start < now
  · rw [if_pos h, if_pos (show late now e from h)]; rfl
  · rw [if_neg h, if_neg (show ¬ late now e from h)]; rfl

theorem launchAll_mold_keep (now : Int) (L : List EJob) (db : DB) (m : Mold) (hm : m ∈ db.molds)
    (h : ∀ e ∈ L, late now e → e.mid ≠ m.id) : m ∈ (L.foldl (launchOne now) db).molds := by
  induction L generalizing db with
  | nil => exact hm
  | cons e L ih =>
    rw [List.foldl_cons]
    refine ih _ ?_ (fun x hx => h x (List.mem_cons_of_mem _ hx))
    rw [launchOne_molds]
    split
    · rename_i hl
      refine List.mem_map.2 ⟨m, hm, ?_⟩
      rw [if_neg (fun hh => h e (by simp) hl hh.symm)]
    · exact hm

theorem launchAll_pred_keep (now : Int) (L : List EJob) (db : DB) (p : Nat × Int) (hp : p ∈ db.preds)
    (h : ∀ e ∈ L, late now e → e.mid ≠ p.1) : p ∈ (L.foldl (launchOne now) db).preds := by
  induction L generalizing db with
  | nil => exact hp
  | cons e L ih =>
    rw [List.foldl_cons]
    refine ih _ ?_ (fun x hx => h x (List.mem_cons_of_mem _ hx))
    rw [launchOne_preds]
    split
    · rename_i hl
      refine List.mem_map.2 ⟨p, hp, ?_⟩
      rw [if_neg (fun hh => h e (by simp) hl hh.symm)]
    · exact hp

theorem launchAll_late (now : Int) (L : List EJob) (hd : (L.map (·.mid)).Nodup) (db : DB) (e : EJob) (he : e ∈ L)
    (hl : late now e) (m : Mold) (hm : m ∈ db.molds) (hid : m.id = e.mid) (t : Int) (hp : (e.mid, t) ∈ db.preds) :
    { m with walltime := e.walltime - (now - e.start) } ∈ (L.foldl (launchOne now) db).molds ∧
      (e.mid, now) ∈ (L.foldl (launchOne now) db).preds := by
  induction L generalizing db with
  | nil => cases he
  | cons x L ih =>
    rw [List.map_cons, List.nodup_cons] at hd
    rw [List.foldl_cons]
    rcases List.mem_cons.1 he with rfl | he
    · have hother : ∀ y ∈ L, late now y → y.mid ≠ e.mid := fun y hy _ hh => hd.1 (List.mem_map.2 ⟨y, hy, hh⟩)
      refine ⟨launchAll_mold_keep now L _ _ ?_ ?_, launchAll_pred_keep now L _ _ ?_ hother⟩
      · rw [launchOne_molds, if_pos hl]
        exact List.mem_map.2 ⟨m, hm, by rw [if_pos hid]⟩
      · intro y hy hly
        show y.mid ≠ m.id
        rw [hid]
        exact hother y hy hly
      · rw [launchOne_preds, if_pos hl]
        exact List.mem_map.2 ⟨_, hp, by rw [if_pos rfl]⟩
    · have hne : x.mid ≠ e.mid := fun hh => hd.1 (hh ▸ List.mem_map.2 ⟨e, he, rfl⟩)
      refine ih hd.2 _ he ?_ ?_
      · rw [launchOne_molds]
        split
        · exact List.mem_map.2 ⟨m, hm, by rw [if_neg (fun h => hne (h.symm.trans hid))]⟩
        · exact hm
      · rw [launchOne_preds]
        split
        · exact List.mem_map.2 ⟨_, hp, by rw [if_neg (fun h => hne h.symm)]⟩
        · exact hp

theorem unique_of_nodup {α β : Type} (f : α → β) (l : List α) (h : (l.map f).Nodup) (a b : α) (ha : a ∈ l) (hb : b ∈ l)
    (e : f a = f b) : a = b := by
  obtain ⟨i, hi, ei⟩ := List.getElem_of_mem ha
  obtain ⟨k, hk, ek⟩ := List.getElem_of_mem hb
  have : i = k := by
    refine (List.getElem_inj (h₀ := by simpa using hi) (h₁ := by simpa using hk) h).1 ?_
    simp [ei, ek, e]
  subst this
  exact ei.symm.trans ek

/-- C33, what is computed. A late reservation launched by a round is started now, and its end date is the one it had
*plus the security time* (plus the time it was suspended): start and walltime of the Gantt after the round, for any
number of jobs launched in the round. Keys of the tables: `molds` by `id`, one prediction per moldable. -/
theorem late_reservation_end (s : RS) (sec now date : Int) (rows : List Row) (sched : List EJob) (db db' : DB) (code : Int)
    (hans : Answer db date rows) (hg : Grouped rows) (hmn : (db.molds.map (·.id)).Nodup) (hpn : (db.preds.map (·.1)).Nodup)
    (hjn : (db.jobs.map (·.id)).Nodup)
    (h : launchRound s sec now rows sched db = some (db', code)) (hold : ∀ j ∈ db.jobs, j.state ≠ "toLaunch")
    (j : LJob) (hj : j ∈ db.jobs) (hres : j.reservation = "Scheduled")
    (j' : LJob) (hj' : j' ∈ db'.jobs) (hjid : j'.id = j.id) (hst : j'.state = "toLaunch")
    (m : Mold) (hm : m ∈ db.molds) (hmid : m.id = j'.mold) (t : Int) (hp : (j'.mold, t) ∈ db.preds) (hlate : t < now) :
    ∃ m' ∈ db'.molds, m'.id = j'.mold ∧ (j'.mold, now) ∈ db'.preds ∧
      now + m'.walltime = t + m.walltime + sec + (if j.suspended then j.suspSum else 0) := by
  have hw : ∀ r ∈ rows, r.job.state ≠ "Suspended" := by
    intro r hr
    rw [((hans r).1 hr).2.2]; decide
  rcases launchRound_cases _ _ _ _ _ _ _ _ h with ⟨rfl, _, rfl⟩ | ⟨rfl, k, ks, _, rfl⟩
  · rcases launchAll_jobs now _ db j' hj' with ⟨hm, _⟩ | ⟨e, he, j0, hj0, hid, rfl⟩
    · exact absurd hst (hold j' hm)
    · obtain ⟨he1, he2⟩ := List.mem_filter.1 he
      obtain ⟨r, hr, e1, e2, e3, e4⟩ := extract_sound s sec rows hw e he1
      obtain ⟨hjoin, _, _⟩ := (hans r).1 hr
      obtain ⟨hrp, ⟨mr, hmr, hmr1, hmr2, hmr3⟩, hrj, _⟩ := (mem_join db r).1 hjoin
      have hj0j : j0 = j := unique_of_nodup _ _ hjn j0 j hj0 hj hjid
      subst hj0j
      have hrj0 : r.job = j0 := unique_of_nodup _ _ hjn r.job j0 hrj hj (by rw [← e1]; exact hid)
      have hmm : mr = m := unique_of_nodup _ _ hmn mr m hmr hm (by rw [hmr1, ← e2, hmid]; rfl)
      subst hmm
      have hpt := unique_of_nodup _ _ hpn _ _ hrp hp (by rw [← e2]; rfl)
      have hrt : r.start = t := (Prod.mk.inj hpt).2
      have hl : late now e := ⟨by rw [e1, hrj0]; exact hres, by rw [e3, hrt]; exact hlate⟩
      have hd : (((extract s sec rows).filter (ready s now)).map (·.mid)).Nodup := by
        have hd1 : ((extract s sec rows).map (fun e => e.job.id)).Nodup := by
          rw [extract_grouped s sec rows hg hw, List.map_map]
          exact runs_nodup rows hg
        have hd2 : (((extract s sec rows).filter (ready s now)).map (fun e => e.job.id)).Nodup :=
          List.Sublist.nodup (List.Sublist.map _ List.filter_sublist) hd1
        rw [List.nodup_iff_pairwise_ne, List.pairwise_map] at hd2 ⊢
        refine List.Pairwise.imp_of_mem ?_ hd2
        intro a b ha hb hab heq
        apply hab
        obtain ⟨ra, hra, a1, a2, _⟩ := extract_sound s sec rows hw a (List.mem_filter.1 ha).1
        obtain ⟨rb, hrb, b1, b2, _⟩ := extract_sound s sec rows hw b (List.mem_filter.1 hb).1
        obtain ⟨_, ⟨ma, hma, ma1, ma2, _⟩, _⟩ := (mem_join db ra).1 ((hans ra).1 hra).1
        obtain ⟨_, ⟨mb, hmb, mb1, mb2, _⟩, _⟩ := (mem_join db rb).1 ((hans rb).1 hrb).1
        have : ma = mb := unique_of_nodup _ _ hmn ma mb hma hmb (by rw [ma1, mb1, ← a2, ← b2]; exact heq)
        rw [a1, b1, ← ma2, ← mb2, this]
      obtain ⟨o1, o2⟩ := launchAll_late now _ hd db e he hl mr hm hmid t hp
      refine ⟨_, o1, hmid, o2, ?_⟩
      show now + (e.walltime - (now - e.start)) = _
      rw [e4, e3, hrt, hmr3, hrj0]
      omega
  · obtain ⟨h1, _⟩ := killJob_fold (k :: ks) db
    rw [h1] at hj'
    exact absurd hst (hold j' hj')

/-- C33, partial: with a security time of zero, a late reservation keeps its end date. Missing: any other security time
(`late_end_violated`), and a reservation postponed by an earlier round (`postponed_end_violated`). -/
theorem late_end_partial (s : RS) (now date : Int) (rows : List Row) (sched : List EJob) (db db' : DB) (code : Int)
    (hans : Answer db date rows) (hg : Grouped rows) (hmn : (db.molds.map (·.id)).Nodup) (hpn : (db.preds.map (·.1)).Nodup)
    (hjn : (db.jobs.map (·.id)).Nodup)
    (h : launchRound s 0 now rows sched db = some (db', code)) (hold : ∀ j ∈ db.jobs, j.state ≠ "toLaunch")
    (j : LJob) (hj : j ∈ db.jobs) (hres : j.reservation = "Scheduled") (hsus : j.suspended = false)
    (j' : LJob) (hj' : j' ∈ db'.jobs) (hjid : j'.id = j.id) (hst : j'.state = "toLaunch")
    (m : Mold) (hm : m ∈ db.molds) (hmid : m.id = j'.mold) (t : Int) (hp : (j'.mold, t) ∈ db.preds) (hlate : t < now) :
    ∃ m' ∈ db'.molds, m'.id = j'.mold ∧ (j'.mold, now) ∈ db'.preds ∧ now + m'.walltime = t + m.walltime := by
  obtain ⟨m', h1, h2, h3, h4⟩ := late_reservation_end s 0 now date rows sched db db' code hans hg hmn hpn hjn h hold j hj hres
    j' hj' hjid hst m hm hmid t hp hlate
  refine ⟨m', h1, h2, h3, ?_⟩
  rw [hsus] at h4
  simpa using h4

/-- A reservation for 600 seconds at date 90, on resource 5. -/
def exAR : DB := ⟨[wj 1 "Scheduled"], [⟨10, 1, 600⟩], [(10, 90)], [(10, 5)], [], [], [], []⟩

def exARrows : List Row := [⟨wj 1 "Scheduled", 10, 90, 600, 5⟩]

theorem exARanswer : Answer exAR 100 exARrows := by
  intro r
  have h : (join exAR).filter (toLaunchRow 100) = exARrows := by decide
  rw [← h, List.mem_filter]
  unfold toLaunchRow
  simp

/-- The hypotheses hold; without security time the reservation ends at 690 as it should. -/
example : Grouped exARrows ∧ (launchRound exS 0 100 exARrows [] exAR).map (fun p => (p.2, p.1.sent, p.1.molds, p.1.preds)) =
    some (0, [1], [⟨10, 1, 590⟩], [(10, 100)]) := by decide

/-- C33, violated. With the default security time of 60 s, a reservation of [90, 690) launched 10 s late gets a walltime
of 650 s: longer than the one asked, up to 750. -/
theorem late_end_violated : Answer exAR 100 exARrows ∧
    (launchRound exS 60 100 exARrows [] exAR).map (fun p => (p.2, p.1.sent, p.1.molds, p.1.preds)) =
      some (0, [1], [⟨10, 1, 650⟩], [(10, 100)]) := ⟨exARanswer, by decide⟩

/-! ### Waiting reservations -/

theorem waitingAR_jobs (s : RS) (timeout now : Int) (db db' : DB) (e : EJob) (h : waitingAR s timeout now db e = some db') :
    db'.jobs = db.jobs.map (fun j => if j.id = e.job.id ∧ e.start + e.walltime < now then { j with state := "Error" } else j) := by
  have hid : ∀ (P : LJob → Prop) [DecidablePred P], (∀ j, ¬ P j) → db.jobs = db.jobs.map (fun j => if P j then { j with state := "Error" } else j) := by
    intro P _ hP
    conv => lhs; rw [← List.map_id db.jobs]
    apply List.map_congr_left
    intro j _
    rw [if_neg (hP j)]; rfl
  unfold waitingAR at h
  split at h
  · rename_i hexp
    cases h
    apply List.map_congr_left
    intro j _
    by_cases c : j.id = e.job.id
    · rw [if_pos c, if_pos ⟨c, hexp⟩]
    · rw [if_neg c, if_neg (fun hh => c hh.1)]
  · rename_i hexp
    have hn := hid (fun j => j.id = e.job.id ∧ e.start + e.walltime < now) (fun j hh => hexp hh.2)
    split at h
    · cases h; exact hn
    · split at h
      · split at h
        · split at h
          · cases h; exact hn
          · cases h
        · cases h
          have : (removeGantt s e.mid (diff e.res s.roids) db).jobs = db.jobs := by
            unfold removeGantt
            split <;> rfl
          show (removeGantt s e.mid (diff e.res s.roids) db).jobs = _
          rw [this]; exact hn
      · cases h; exact hn

/-- C33. When a round examines the waiting reservations, exactly the expired ones are put in error: a job is in Error
afterwards if and only if it was, or it is one of them and its end date (security time included) is passed; the other
columns and the other jobs are unchanged. -/
theorem expired_error (s : RS) (timeout now : Int) (l : List EJob) (db db' : DB) (h : waitingARs s timeout now db l = some db') :
    db'.jobs = db.jobs.map (fun j => if ∃ e ∈ l, e.job.id = j.id ∧ e.start + e.walltime < now then { j with state := "Error" } else j) := by
  induction l generalizing db with
  | nil =>
    have h : db = db' := Option.some.inj h
    subst h
    conv => lhs; rw [← List.map_id db.jobs]
    apply List.map_congr_left
    intro j _
    rw [if_neg (by simp)]; rfl
  | cons e l ih =>
    unfold waitingARs at h
    cases h1 : waitingAR s timeout now db e with
    | none => rw [h1] at h; cases h
    | some db1 =>
      rw [h1] at h
      rw [ih db1 h, waitingAR_jobs s timeout now db db1 e h1, List.map_map]
      apply List.map_congr_left
      intro j _
      simp only [Function.comp]
      by_cases c : j.id = e.job.id ∧ e.start + e.walltime < now
      · rw [if_pos c]
        rw [if_pos (⟨e, by simp, c.1.symm, c.2⟩ : ∃ x ∈ e :: l, x.job.id = j.id ∧ x.start + x.walltime < now)]
        split <;> rfl
      · rw [if_neg c]
        by_cases c2 : ∃ x ∈ l, x.job.id = j.id ∧ x.start + x.walltime < now
        · obtain ⟨x, hx, h2⟩ := c2
          rw [if_pos ⟨x, hx, h2⟩, if_pos ⟨x, List.mem_cons_of_mem _ hx, h2⟩]
        · rw [if_neg c2, if_neg]
          rintro ⟨x, hx, h2⟩
          rcases List.mem_cons.1 hx with rfl | hx
          · exact c ⟨h2.1.symm, h2.2⟩
          · exact c2 ⟨x, hx, h2⟩

example : (waitingARs exS 300 800 exAR (extract exS 60 exARrows)).map (fun d => d.jobs.map (·.state)) = some ["Error"] ∧
    (waitingARs exS 300 100 exAR (extract exS 60 exARrows)).map (fun d => d.jobs.map (·.state)) = some ["Waiting"] := by decide

/-- The platform while resource 5 is Suspected, and once it is Alive again. -/
def exDown : RS := (build ["default"] ["id"] [⟨5, "Suspected", "default", 0, "n1", fun _ => ""⟩, ⟨7, "Alive", "default", 0, "n1", fun _ => ""⟩]).getD (init [])
def exUp : RS := (build ["default"] ["id"] [⟨5, "Alive", "default", 0, "n1", fun _ => ""⟩, ⟨7, "Alive", "default", 0, "n1", fun _ => ""⟩]).getD (init [])

/-- C33, violated even without security time: a reservation of [90, 690) whose resource is missing is postponed at
date 300 with the same walltime, and launched at date 400 up to 901. -/
theorem postponed_end_violated :
    ∃ db1, waitingARs exDown 100 300 exAR (extract exDown 0 exARrows) = some db1 ∧ db1.preds = [(10, 301)] ∧ db1.molds = exAR.molds ∧
      (launchRound exUp 0 400 (join db1) [] db1).map (fun p => (p.2, p.1.sent, p.1.molds, p.1.preds)) =
        some (0, [1], [⟨10, 1, 501⟩], [(10, 400)]) := ⟨_, rfl, by decide, by decide, by decide⟩

/-! ## C36: the Gantt tables -/

/-- The moldable is the one of an accepted reservation which still waits and has a prediction and resources. -/
def AcceptedReservation (db : DB) (mid : Nat) : Prop :=
  (∃ m ∈ db.molds, m.id = mid ∧ ∃ j ∈ db.jobs, j.id = m.job ∧ (j.state = "Waiting" ∨ j.state = "toAckReservation") ∧
    j.reservation = "Scheduled") ∧ (∃ p ∈ db.preds, p.1 = mid) ∧ ∃ g ∈ db.gres, g.1 = mid

theorem mem_reservationsToKeep (db : DB) (mid : Nat) : mid ∈ reservationsToKeep db ↔ AcceptedReservation db mid := by
  unfold reservationsToKeep AcceptedReservation
  simp only [List.mem_map, List.mem_filter, decide_eq_true_eq, List.any_eq_true, Bool.and_eq_true, Bool.or_eq_true, beq_iff_eq]
  constructor
  · rintro ⟨m, ⟨hm, h1, h2, j, hj, ⟨h3, h4⟩, h5⟩, rfl⟩
    exact ⟨⟨m, hm, rfl, j, hj, h3, h4, h5⟩, h1, h2⟩
  · rintro ⟨⟨m, hm, rfl, j, hj, h3, h4, h5⟩, h1, h2⟩
    exact ⟨m, ⟨hm, h1, h2, j, hj, ⟨h3, h4⟩, h5⟩, rfl⟩

/-- C36. Flushing keeps exactly the predictions and the resources of the accepted reservations, and changes nothing
else. -/
theorem flush_keeps_reservations (db : DB) :
    (∀ p, p ∈ (flush (reservationsToKeep db) db).preds ↔ p ∈ db.preds ∧ AcceptedReservation db p.1) ∧
    (∀ g, g ∈ (flush (reservationsToKeep db) db).gres ↔ g ∈ db.gres ∧ AcceptedReservation db g.1) ∧
    (∀ mid, AcceptedReservation (flush (reservationsToKeep db) db) mid ↔ AcceptedReservation db mid) ∧
    (flush (reservationsToKeep db) db).jobs = db.jobs ∧ (flush (reservationsToKeep db) db).molds = db.molds ∧
    (flush (reservationsToKeep db) db).assigned = db.assigned := by
  have hp : ∀ p, p ∈ (flush (reservationsToKeep db) db).preds ↔ p ∈ db.preds ∧ AcceptedReservation db p.1 := by
    intro p
    unfold flush
    split
    · simp only [List.mem_filter, List.contains_iff_mem, mem_reservationsToKeep]
    · rename_i h
      have h : reservationsToKeep db = [] := Classical.not_not.1 h
      simp only [List.not_mem_nil, ← mem_reservationsToKeep, h, and_false]
  have hq : ∀ g, g ∈ (flush (reservationsToKeep db) db).gres ↔ g ∈ db.gres ∧ AcceptedReservation db g.1 := by
    intro p
    unfold flush
    split
    · simp only [List.mem_filter, List.contains_iff_mem, mem_reservationsToKeep]
    · rename_i h
      have h : reservationsToKeep db = [] := Classical.not_not.1 h
      simp only [List.not_mem_nil, ← mem_reservationsToKeep, h, and_false]
  have hj : (flush (reservationsToKeep db) db).jobs = db.jobs := by unfold flush; split <;> rfl
  have hm : (flush (reservationsToKeep db) db).molds = db.molds := by unfold flush; split <;> rfl
  refine ⟨hp, hq, ?_, hj, hm, by unfold flush; split <;> rfl⟩
  intro mid
  unfold AcceptedReservation
  rw [hj, hm]
  constructor
  · rintro ⟨h1, ⟨p, hp1, hp2⟩, g, hg1, hg2⟩
    exact ⟨h1, ⟨p, ((hp p).1 hp1).1, hp2⟩, g, ((hq g).1 hg1).1, hg2⟩
  · rintro ⟨h1, ⟨p, hp1, hp2⟩, g, hg1, hg2⟩
    have ha : AcceptedReservation db mid := ⟨h1, ⟨p, hp1, hp2⟩, g, hg1, hg2⟩
    exact ⟨h1, ⟨p, (hp p).2 ⟨hp1, hp2 ▸ ha⟩, hp2⟩, g, (hq g).2 ⟨hg1, hg2 ▸ ha⟩, hg2⟩

/-- A reservation and an ordinary job: only the reservation stays in the Gantt. -/
example : (fun d : DB => (d.preds, d.gres)) (flush (reservationsToKeep { exAR with
      jobs := wj 2 "None" :: exAR.jobs, molds := ⟨20, 2, 60⟩ :: exAR.molds, preds := (20, 100) :: exAR.preds, gres := (20, 7) :: exAR.gres })
    { exAR with
      jobs := wj 2 "None" :: exAR.jobs, molds := ⟨20, 2, 60⟩ :: exAR.molds, preds := (20, 100) :: exAR.preds, gres := (20, 7) :: exAR.gres }) =
    ([(10, 90)], [(10, 5)]) := by decide

/-- C36, what is computed. Removing the missing resources of a reservation deletes the *other* ones: of a moldable, only
the resources given stay (and everything stays if none is given); the other moldables are not touched. -/
theorem remove_resources_exact (s : RS) (mid : Nat) (missing : List Nat) (db : DB) (g : Nat × Nat) :
    g ∈ (removeGantt s mid missing db).gres ↔ g ∈ db.gres ∧ (g.1 = mid → missing = [] ∨ ∃ k ∈ missing, s.o2i k = g.2) := by
  unfold removeGantt
  split
  · rename_i h; simp [h]
  · rename_i h
    simp only [List.mem_filter, Bool.not_eq_true', Bool.and_eq_false_iff, decide_eq_false_iff_not, Bool.not_eq_false',
      List.contains_iff_mem, List.mem_map]
    constructor
    · rintro ⟨h1, h2 | h2⟩
      · exact ⟨h1, fun hh => absurd hh h2⟩
      · exact ⟨h1, fun _ => Or.inr h2⟩
    · rintro ⟨h1, h2⟩
      refine ⟨h1, ?_⟩
      by_cases c : g.1 = mid
      · rcases h2 c with hh | hh
        · exact absurd hh h
        · exact Or.inr hh
      · exact Or.inl c

/-- C36, violated: a reservation on resources 5 (Alive) and 9, with 9 missing, is left with the missing one only. -/
theorem remove_resources_violated :
    (removeGantt exS 10 [2] { exAR with gres := [(10, 5), (10, 9)] }).gres = [(10, 9)] ∧ exS.o2i 2 = 9 := by decide

/-- C36, violated: a reservation which is late, within the timeout, with some of its resources and not all of them,
makes the round raise. -/
theorem waiting_reservation_violated (s : RS) (timeout now : Int) (db : DB) (e : EJob) (l : List EJob)
    (h1 : ¬ e.start + e.walltime < now) (h2 : e.start < now) (h3 : now < e.start + timeout)
    (ha : ∃ k ∈ e.res, k ∈ s.roids) (hm : ∃ k ∈ e.res, k ∉ s.roids) : waitingARs s timeout now db (e :: l) = none := by
  obtain ⟨a, ha1, ha2⟩ := ha
  obtain ⟨b, hb1, hb2⟩ := hm
  have hi : inter e.res s.roids ≠ [] := by
    intro hh
    have : a ∈ inter e.res s.roids := List.mem_filter.2 ⟨ha1, by simpa using ha2⟩
    rw [hh] at this
    cases this
  have hd : diff e.res s.roids ≠ [] := by
    intro hh
    have : b ∈ diff e.res s.roids := List.mem_filter.2 ⟨hb1, by simpa using hb2⟩
    rw [hh] at this
    cases this
  unfold waitingARs waitingAR
  rw [if_neg h1, if_neg (fun hh => hi hh.1), if_pos h2, if_pos h3, if_neg hd]
  rfl

example : waitingARs exS 300 100 exAR [⟨wj 1 "Scheduled", 10, 90, 600, [0, 3]⟩] = none := by decide

/-! ## C43: suspended jobs -/

/-- Rows sorted by the start date and the identifier of the job, as the queries ask, are grouped by job. -/
theorem sorted_grouped (rows : List Row) (h : rows.Pairwise (fun a b => a.job.start < b.job.start ∨ (a.job.start = b.job.start ∧ a.job.id ≤ b.job.id)))
    (hj : ∀ a ∈ rows, ∀ b ∈ rows, a.job.id = b.job.id → a.job.start = b.job.start) : Grouped rows := by
  induction rows with
  | nil => trivial
  | cons r rs ih =>
    rw [List.pairwise_cons] at h
    refine ⟨ih h.2 (fun a ha b hb => hj a (List.mem_cons_of_mem _ ha) b (List.mem_cons_of_mem _ hb)), ?_⟩
    rintro ⟨x, hx, hid⟩
    cases rs with
    | nil => cases hx
    | cons y t =>
      refine ⟨y, t, rfl, ?_⟩
      rcases List.mem_cons.1 hx with rfl | hx
      · exact hid
      · have h1 := h.1 y (by simp)
        have h2 := (List.pairwise_cons.1 h.2).1 x hx
        have h3 := hj x (by simp [hx]) r (by simp) hid
        omega

theorem treatLast_map (s : RS) (l : List EJob) : (treatLast s l).map (fun e => e.job.id) = l.map (fun e => e.job.id) := by
  induction l with
  | nil => rfl
  | cons e l ih =>
    cases l with
    | nil => unfold treatLast; split <;> rfl
    | cons e' l => rw [treatLast, List.map_cons, List.map_cons, ih]; simp

theorem treatLast_append (s : RS) (l : List EJob) (e : EJob) : treatLast s (l ++ [e]) =
    l ++ [if e.job.state = "Suspended" then { e with res := e.res.filter (fun k => !s.suspendable.contains k) } else e] := by
  induction l with
  | nil => simp only [List.nil_append, treatLast]; split <;> rfl
  | cons x l ih =>
    rw [List.cons_append, List.cons_append, ← ih]
    cases l <;> rfl

/-- C43, what is computed. When the rows are grouped by job, every job keeps all its resources except the last one of the
list, which gives back the suspendable ones if it is suspended. -/
theorem suspended_exact (s : RS) (sec : Int) (rows : List Row) (hg : Grouped rows) (hne : rows ≠ []) :
    ∃ (l : List EJob) (e : EJob), (runs rows).map (mkJob s sec) = l ++ [e] ∧
      extract s sec rows = l ++ [if e.job.state = "Suspended" then { e with res := e.res.filter (fun k => !s.suspendable.contains k) } else e] := by
  have hne' : (runs rows).map (mkJob s sec) ≠ [] := by
    cases rows with
    | nil => exact absurd rfl hne
    | cons r rs =>
      obtain ⟨l, t, h⟩ := runs_head r rs
      rw [h]; simp
  refine ⟨_, _, (List.dropLast_concat_getLast hne').symm, ?_⟩
  unfold extract
  dsimp only
  have hn : ((treatLast s ((runs rows).map (mkJob s sec))).map (fun e => e.job.id)).Nodup := by
    rw [treatLast_map, List.map_map]
    exact runs_nodup rows hg
  rw [← treatLast_append, List.dropLast_concat_getLast]
  conv => rhs; rw [← List.map_id (treatLast s ((runs rows).map (mkJob s sec)))]
  apply List.map_congr_left
  intro e he
  exact lastOf_self _ hn e he

/-- C43, partial: a job which is not suspended keeps all its resources; the resources of a job are those of its rows, or
those less the suspendable ones and then it is suspended. Missing: that all the suspended jobs are treated. -/
theorem suspended_partial (s : RS) (sec : Int) (rows : List Row) (hg : Grouped rows) (e : EJob) (he : e ∈ extract s sec rows) :
    (∀ k ∈ e.res, ∃ r ∈ rows, r.job.id = e.job.id ∧ s.i2o r.rid = k) ∧
    (e.job.state ≠ "Suspended" → ∀ r ∈ rows, r.job.id = e.job.id → s.i2o r.rid ∈ e.res) ∧
    (∀ r ∈ rows, r.job.id = e.job.id → s.i2o r.rid ∉ s.suspendable → s.i2o r.rid ∈ e.res) := by
  have hne : rows ≠ [] := by
    rintro rfl
    simp [extract, runs, treatLast] at he
  obtain ⟨l, x, h1, h2⟩ := suspended_exact s sec rows hg hne
  -- every job of the list has the resources of its rows
  have base : ∀ y ∈ l ++ [x], (∀ k ∈ y.res, ∃ r ∈ rows, r.job.id = y.job.id ∧ s.i2o r.rid = k) ∧
      ∀ r ∈ rows, r.job.id = y.job.id → s.i2o r.rid ∈ y.res := by
    intro y hy
    rw [← h1] at hy
    obtain ⟨z, hz, rfl⟩ := List.mem_map.1 hy
    refine ⟨?_, ?_⟩
    · intro k hk
      obtain ⟨i, hi, rfl⟩ := List.mem_map.1 hk
      obtain ⟨r, hr, e1, e2⟩ := (runs_sound rows z hz).2.2 i hi
      exact ⟨r, hr, e1, by rw [e2]⟩
    · intro r hr hid
      obtain ⟨w, hw, w1, w2⟩ := runs_complete rows r hr
      have : w = z := unique_of_nodup (fun x => x.1.job.id) _ (runs_nodup rows hg) w z hw hz (by
        show w.1.job.id = z.1.job.id
        rw [w1, hid]; rfl)
      subst this
      exact List.mem_map.2 ⟨r.rid, w2, rfl⟩
  rw [h2] at he
  rcases List.mem_append.1 he with he | he
  · obtain ⟨b1, b2⟩ := base e (List.mem_append.2 (Or.inl he))
    exact ⟨b1, fun _ => b2, fun r hr hid _ => b2 r hr hid⟩
  · have he := List.mem_singleton.1 he
    obtain ⟨b1, b2⟩ := base x (by simp)
    by_cases c : x.job.state = "Suspended"
    · rw [if_pos c] at he
      subst he
      refine ⟨?_, fun hh => absurd c hh, ?_⟩
      · intro k hk
        exact b1 k (List.mem_filter.1 hk).1
      · intro r hr hid hns
        exact List.mem_filter.2 ⟨b2 r hr hid, by simpa using hns⟩
    · rw [if_neg c] at he
      subst he
      exact ⟨b1, fun _ => b2, fun r hr hid _ => b2 r hr hid⟩

/-- Two suspended jobs on suspendable resources. -/
def exSusp : List Row := [⟨{ wj 1 "None" with state := "Suspended" }, 10, 90, 60, 5⟩, ⟨{ wj 2 "None" with state := "Suspended" }, 20, 90, 60, 7⟩]

/-- C43, violated: of two suspended jobs, the first one keeps its suspendable resource. -/
theorem suspended_violated : Grouped exSusp ∧ exS.i2o 5 ∈ exS.suspendable ∧
    (extract exS 60 exSusp).map (fun e => (e.job.id, e.job.state, e.res)) = [(1, "Suspended", [0]), (2, "Suspended", [])] := by decide

/-! ## C63: the schedule recorded is the one decided -/

/-- C63. After the decisions of a scheduler are recorded in the Gantt, the predictions are the former ones and those of
the jobs which were given a start date, and the resources recorded for a moldable are the ones decided, read back with
the same numbering. -/
theorem saved_schedule (susp labels : List String) (rs : List Res) (s : RS) (hn : (rs.map Res.id).Nodup)
    (hb : build susp labels rs = some s) (db : DB) (l : List EJob) (hres : ∀ e ∈ l, ∀ k ∈ e.res, k ∈ s.roids) :
    (∀ mid t, (mid, t) ∈ (saveAssigns s db l).preds ↔ (mid, t) ∈ db.preds ∨ ∃ e ∈ l, e.mid = mid ∧ e.start = t ∧ 0 ≤ t) ∧
    (∀ e ∈ l, 0 ≤ e.start → (∀ x ∈ l, x.mid = e.mid → x = e) → (∀ g ∈ db.gres, g.1 ≠ e.mid) →
      ∀ k, (∃ g ∈ (saveAssigns s db l).gres, g.1 = e.mid ∧ s.i2o g.2 = k) ↔ k ∈ e.res) ∧
    (∀ g ∈ (saveAssigns s db l).gres, g ∈ db.gres ∨ ∃ r ∈ rs, r.id = g.2 ∧ r.usable = true) ∧
    (∀ mid, (∀ e ∈ l, e.mid = mid → e.start < 0) → ∀ g, g.1 = mid → (g ∈ (saveAssigns s db l).gres ↔ g ∈ db.gres)) ∧
    (saveAssigns s db l).jobs = db.jobs := by
  have hg : ∀ g, g ∈ (saveAssigns s db l).gres ↔ g ∈ db.gres ∨ ∃ e ∈ l, 0 ≤ e.start ∧ ∃ k ∈ e.res, g = (e.mid, s.o2i k) := by
    intro g
    unfold saveAssigns
    simp only [List.mem_append, List.mem_flatMap, List.mem_filter, List.mem_map, decide_eq_true_eq]
    constructor
    · rintro (h | ⟨e, ⟨he, hs⟩, k, hk, rfl⟩)
      · exact Or.inl h
      · exact Or.inr ⟨e, he, by omega, k, hk, rfl⟩
    · rintro (h | ⟨e, he, hs, k, hk, rfl⟩)
      · exact Or.inl h
      · exact Or.inr ⟨e, ⟨he, by omega⟩, k, hk, rfl⟩
  obtain ⟨n1, n2, n3, _⟩ := numbering_inverse hn hb
  refine ⟨?_, ?_, ?_, ?_, rfl⟩
  · intro mid t
    unfold saveAssigns
    simp only [List.mem_append, List.mem_filter, List.mem_map, decide_eq_true_eq]
    constructor
    · rintro (h | ⟨e, ⟨he, hs⟩, h⟩)
      · exact Or.inl h
      · cases h
        exact Or.inr ⟨e, he, rfl, rfl, by omega⟩
    · rintro (h | ⟨e, he, rfl, rfl, hs⟩)
      · exact Or.inl h
      · exact Or.inr ⟨e, ⟨he, by omega⟩, rfl⟩
  · intro e he hs huniq hfresh k
    constructor
    · rintro ⟨g, hgm, hg1, rfl⟩
      rcases (hg g).1 hgm with h | ⟨x, hx, _, k, hk, rfl⟩
      · exact absurd hg1 (hfresh g h)
      · have := huniq x hx hg1
        subst this
        rw [n2 k (hres x hx k hk)]
        exact hk
    · intro hk
      exact ⟨(e.mid, s.o2i k), (hg _).2 (Or.inr ⟨e, he, hs, k, hk, rfl⟩), rfl, n2 k (hres e he k hk)⟩
  · intro g hgm
    rcases (hg g).1 hgm with h | ⟨e, he, _, k, hk, rfl⟩
    · exact Or.inl h
    · obtain ⟨r, hr, hu⟩ := (n1 k).1 (hres e he k hk)
      have := (n3 k r hr hu).2
      refine Or.inr ⟨r, List.mem_of_getElem? hr, this.symm, ?_⟩
      unfold Res.usable
      rcases hu with hu | hu <;> simp [hu]
  · intro mid hno g hgm
    rw [hg]
    constructor
    · rintro (h | ⟨e, he, hs, k, hk, rfl⟩)
      · exact h
      · have := hno e he hgm
        omega
    · exact Or.inl

example : (∀ e ∈ [(⟨wj 1 "None", 10, 90, 60, [0, 2]⟩ : EJob), ⟨wj 2 "None", 20, -1, 60, []⟩], ∀ k ∈ e.res, k ∈ exS.roids) ∧
    (fun d : DB => (d.preds, d.gres)) (saveAssigns exS ⟨[], [], [], [], [], [], [], []⟩ [⟨wj 1 "None", 10, 90, 60, [0, 2]⟩, ⟨wj 2 "None", 20, -1, 60, []⟩]) =
      ([(10, 90)], [(10, 5), (10, 9)]) := by decide

end Oar.Launch
