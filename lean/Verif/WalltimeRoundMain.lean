import Verif.WalltimeRoundProps

/-!
# C121 : the round
-/

namespace Oar.WalltimeRound

open Oar.Walltime

/-- What a round does not change. -/
structure Static (db db' : Db) : Prop where
  jobs : db'.jobs = db.jobs
  assigned : db'.assigned = db.assigned
  preds : db'.preds = db.preds
  gres : db'.gres = db.gres
  log : db'.log = db.log
  molds : db'.molds.map (fun m => (m.id, m.job)) = db.molds.map (fun m => (m.id, m.job))
  wtc : db'.wtc.map Prod.fst = db.wtc.map Prod.fst

/-- The moldables of a job, its requests. -/
def moldsOf (db : Db) (jid : Nat) : List Mold := db.molds.filter (fun m => m.job == jid)
def reqsOf (db : Db) (jid : Nat) : List (Nat × Wtc) := db.wtc.filter (fun w => w.1 == jid)

/-- Nothing changed for the job. -/
structure Same (db db' : Db) (jid : Nat) : Prop where
  molds : moldsOf db' jid = moldsOf db jid
  reqs : reqsOf db' jid = reqsOf db jid
  events : db'.events.count jid = db.events.count jid

/-- The change recorded for the job: all its moldables get the walltime, its request is replaced, an event is added. -/
structure Changed (db db' : Db) (jid : Nat) (wall : Int) (w : Wtc) : Prop where
  molds : moldsOf db' jid = (moldsOf db jid).map (fun m => { m with walltime := wall })
  reqs : reqsOf db' jid = (reqsOf db jid).map (fun x => (x.1, w))
  events : db'.events.count jid = db.events.count jid + 1

theorem Static.refl (db : Db) : Static db db := ⟨rfl, rfl, rfl, rfl, rfl, rfl, rfl⟩

theorem Static.trans {a b c : Db} (h : Static a b) (k : Static b c) : Static a c :=
  ⟨k.jobs.trans h.jobs, k.assigned.trans h.assigned, k.preds.trans h.preds, k.gres.trans h.gres, k.log.trans h.log, k.molds.trans h.molds, k.wtc.trans h.wtc⟩

theorem Same.refl (db : Db) (jid : Nat) : Same db db jid := ⟨rfl, rfl, rfl⟩

theorem Same.trans {a b c : Db} {jid : Nat} (h : Same a b jid) (k : Same b c jid) : Same a c jid :=
  ⟨k.molds.trans h.molds, k.reqs.trans h.reqs, k.events.trans h.events⟩

theorem record_static (db : Db) (e : Entry) (f : Int) : Static db (record db e f) := by
  refine ⟨rfl, rfl, rfl, rfl, rfl, ?_, ?_⟩
  · show (db.molds.map _).map _ = _
    rw [List.map_map]
    refine List.map_congr_left (fun m _ => ?_)
    show (fun m : Mold => (m.id, m.job)) (if m.job = e.job.id then _ else m) = _
    split <;> rfl
  · show (db.wtc.map _).map Prod.fst = _
    rw [List.map_map]
    refine List.map_congr_left (fun m _ => ?_)
    show Prod.fst (if m.1 = e.job.id then _ else m) = _
    split <;> rfl

theorem filter_map_set {α : Type} (key : α → Nat) (g : α → α) (hk : ∀ a, key (g a) = key a) (jid : Nat) : ∀ l : List α,
    (l.map (fun a => if key a = jid then g a else a)).filter (fun a => key a == jid) = (l.filter (fun a => key a == jid)).map g
  | [] => rfl
  | a :: l => by
    by_cases h : key a = jid
    · simp [h, hk, filter_map_set key g hk jid l]
    · simp [h, filter_map_set key g hk jid l]

theorem filter_map_other {α : Type} (key : α → Nat) (g : α → α) (hk : ∀ a, key (g a) = key a) (jid k : Nat) (hne : k ≠ jid) : ∀ l : List α,
    (l.map (fun a => if key a = jid then g a else a)).filter (fun a => key a == k) = l.filter (fun a => key a == k)
  | [] => rfl
  | a :: l => by
    by_cases h : key a = jid
    · have h2 : jid ≠ k := fun h => hne h.symm
      simp [h, hk, h2, filter_map_other key g hk jid k hne l]
    · rw [List.map_cons, if_neg h, List.filter_cons, List.filter_cons, filter_map_other key g hk jid k hne l]

theorem record_changed (db : Db) (e : Entry) (f : Int) : Changed db (record db e f) e.job.id (e.walltime + f) (newReq e.req f) := by
  refine ⟨?_, ?_, ?_⟩
  · exact filter_map_set Mold.job (fun m => { m with walltime := e.walltime + f }) (fun _ => rfl) e.job.id db.molds
  · exact filter_map_set Prod.fst (fun x : Nat × Wtc => (x.1, newReq e.req f)) (fun _ => rfl) e.job.id db.wtc
  · show (e.job.id :: db.events).count e.job.id = _
    simp

theorem record_other (db : Db) (e : Entry) (f : Int) (jid : Nat) (hne : jid ≠ e.job.id) : Same db (record db e f) jid := by
  refine ⟨?_, ?_, ?_⟩
  · exact filter_map_other Mold.job (fun m => { m with walltime := e.walltime + f }) (fun _ => rfl) e.job.id jid hne db.molds
  · exact filter_map_other Prod.fst (fun x : Nat × Wtc => (x.1, newReq e.req f)) (fun _ => rfl) e.job.id jid hne db.wtc
  · show (e.job.id :: db.events).count jid = _
    rw [List.count_cons_of_ne hne.symm]

/-- A database between the beginning and the end of the round: a moldable is as at the beginning or as at the end. -/
structure Between (db d db' : Db) : Prop where
  static : Static db d
  molds : ∀ m ∈ d.molds, m ∈ db.molds ∨ m ∈ db'.molds

theorem same_mem {a b : Db} {m : Mold} (h : Same a b m.job) (hm : m ∈ a.molds) : m ∈ b.molds := by
  have : m ∈ moldsOf a m.job := List.mem_filter.2 ⟨hm, by simp⟩
  rw [← h.molds] at this
  exact (List.mem_filter.1 this).1

theorem run_spec (env : Env) : ∀ (es : List Entry) (db : Db), (es.map (fun e => e.job.id)).Nodup →
    Static db (run env es db).1 ∧ (∀ jid, jid ∉ es.map (fun e => e.job.id) → Same db (run env es db).1 jid) ∧
    (∀ e ∈ es, (Same db (run env es db).1 e.job.id ∧ ((run env es db).2 = true → ∃ d, Between db d (run env es db).1 ∧ decideFit env d e = .wait)) ∨
      ∃ d f, Between db d (run env es db).1 ∧ decideFit env d e = .give f ∧ Changed db (run env es db).1 e.job.id (e.walltime + f) (newReq e.req f)) ∧
    ((run env es db).2 = false → ∃ e ∈ es, ∃ d, Between db d (run env es db).1 ∧ decideFit env d e = .raised)
  | [], db, _ => ⟨Static.refl db, fun jid _ => Same.refl db jid, by simp, by simp [run]⟩
  | e :: es, db, hn => by
    simp only [List.map_cons, List.nodup_cons] at hn
    obtain ⟨hne, hn⟩ := hn
    have here : ∀ db', Between db db db' := fun db' => ⟨Static.refl db, fun m hm => Or.inl hm⟩
    cases hdec : decideFit env db e with
    | raised =>
      have hr : run env (e :: es) db = (db, false) := by unfold run; rw [hdec]
      rw [hr]
      refine ⟨Static.refl db, fun jid _ => Same.refl db jid, fun x _ => Or.inl ⟨Same.refl db _, fun h => by simp at h⟩, fun _ => ?_⟩
      exact ⟨e, by simp, db, here _, hdec⟩
    | wait =>
      have hr : run env (e :: es) db = run env es db := by rw [run]; rw [hdec]
      obtain ⟨i1, i2, i3, i4⟩ := run_spec env es db hn
      rw [hr]
      refine ⟨i1, fun jid hj => i2 jid (fun h => hj (List.mem_cons_of_mem _ h)), fun x hx => ?_, fun hb => ?_⟩
      · rcases List.mem_cons.1 hx with rfl | hx
        · exact Or.inl ⟨i2 _ hne, fun _ => ⟨db, here _, hdec⟩⟩
        · exact i3 x hx
      · obtain ⟨x, hx, d, h⟩ := i4 hb
        exact ⟨x, by simp [hx], d, h⟩
    | give f =>
      have hr : run env (e :: es) db = run env es (record db e f) := by rw [run]; rw [hdec]
      obtain ⟨i1, i2, i3, i4⟩ := run_spec env es (record db e f) hn
      rw [hr]
      have hst := record_static db e f
      have lift : ∀ d, Between (record db e f) d (run env es (record db e f)).1 → Between db d (run env es (record db e f)).1 := by
        intro d hd
        refine ⟨hst.trans hd.static, fun m hm => ?_⟩
        rcases hd.molds m hm with h | h
        · by_cases hj : m.job = e.job.id
          · exact Or.inr (same_mem (i2 m.job (hj ▸ hne)) h)
          · have := record_other db e f m.job hj
            have hm2 : m ∈ moldsOf (record db e f) m.job := List.mem_filter.2 ⟨h, by simp⟩
            rw [this.molds] at hm2
            exact Or.inl (List.mem_filter.1 hm2).1
        · exact Or.inr h
      refine ⟨hst.trans i1, fun jid hj => ?_, fun x hx => ?_, fun hb => ?_⟩
      · simp only [List.map_cons, List.mem_cons, not_or] at hj
        exact (record_other db e f jid hj.1).trans (i2 jid hj.2)
      · rcases List.mem_cons.1 hx with rfl | hx
        · right
          have hc := record_changed db x f
          have hs := i2 _ hne
          exact ⟨db, f, here _, hdec, ⟨hs.molds.trans hc.molds, hs.reqs.trans hc.reqs, by rw [hs.events, hc.events]⟩⟩
        · have hxe : x.job.id ≠ e.job.id := fun h => hne (List.mem_map.2 ⟨x, hx, h⟩)
          have ho := record_other db e f _ hxe
          rcases i3 x hx with ⟨a, b⟩ | ⟨d, f', a, b, c⟩
          · left
            refine ⟨ho.trans a, fun hb => ?_⟩
            obtain ⟨d, h1, h2⟩ := b hb
            exact ⟨d, lift d h1, h2⟩
          · right
            exact ⟨d, f', lift d a, b, ⟨by rw [c.molds, ho.molds], by rw [c.reqs, ho.reqs], by rw [c.events, ho.events]⟩⟩
      · obtain ⟨x, hx, d, h1, h2⟩ := i4 hb
        exact ⟨x, by simp [hx], d, lift d h1, h2⟩

/-! ## The property -/

/-- The date at which the job `j` of walltime `w` has to end. -/
def EndAt (env : Env) (db : Db) (j : Job) (w : Int) : Int := j.start + w + Susp env db j

/-- The dates: a security time, the running jobs started after it (the epoch is far), no negative walltime, before and after the round. -/
structure Dates (env : Env) (db db' : Db) : Prop where
  sec : 0 ≤ env.sec
  start : ∀ j ∈ db.jobs, j.state = "Running" → env.sec < j.start
  walltime : ∀ m, m ∈ db.molds ∨ m ∈ db'.molds → 0 ≤ m.walltime

/-- The value of a type `inner` designates a job: job 1 without a value (the value is then `True`, the integer 1). -/
def Designates (env : Env) (v : Option String) (cid : Nat) : Prop := (v = none ∧ cid = 1) ∨ ∃ t, v = some t ∧ env.int t = some cid

theorem inner_exact (env : Env) (v : Option String) (cid : Nat) : innerOf env v = some cid ↔ Designates env v cid := by
  unfold innerOf Designates
  cases v with
  | none => simp [eq_comm]
  | some t => simp

/-- The container of the job ends at `c`, with a walltime of before or after the round. -/
def Container (env : Env) (db db' : Db) (j : Job) (c : Int) : Prop :=
  ∃ v cid, ⟨"inner", v⟩ ∈ j.types ∧ Designates env v cid ∧ ∃ k ∈ db.jobs, k.id = cid ∧ k.state = "Running" ∧
    ∃ m, (m ∈ db.molds ∨ m ∈ db'.molds) ∧ m.id = k.assigned ∧ c = k.start + m.walltime

/-- A job which must not be delayed by the change of the job `j`: predicted on one of its resources after its end; one that cannot share the
resource, and an advance reservation if the next jobs may be delayed. -/
def Next (env : Env) (db : Db) (j : Job) (w : Int) (r : Wtc) (s : Int) : Prop :=
  ∃ k, Predicted db j k s ∧ ¬ Share j k ∧ (r.delay = true → k.reservation ≠ "None") ∧ EndAt env db j w < s

/-- Same as `Next`, for every job that is not besteffort. -/
def NextAny (env : Env) (db : Db) (j : Job) (w : Int) (r : Wtc) (s : Int) : Prop :=
  ∃ k, Predicted db j k s ∧ ⟨"besteffort", none⟩ ∉ k.types ∧ (r.delay = true → k.reservation ≠ "None") ∧ EndAt env db j w < s

/-- The seconds that may be granted for the request `r` of the job `j` of walltime `w`. -/
structure Fair (env : Env) (db db' : Db) (j : Job) (w : Int) (r : Wtc) (f : Int) : Prop where
  up : 0 < r.pending → 0 < f ∧ f ≤ r.pending
  increment : 0 < r.pending → r.force = false → 0 < env.increment j.queue (w - r.granted) → f ≤ env.increment j.queue (w - r.granted)
  container : 0 < r.pending → (∃ v, ⟨"inner", v⟩ ∈ j.types) → ∃ c, Container env db db' j c ∧ EndAt env db j w + f ≤ c
  next : 0 < r.pending → ∀ s, Next env db j w r s → EndAt env db j w + f + env.sec ≤ s
  most : 0 < r.pending → f = r.pending ∨ (r.force = false ∧ f = env.increment j.queue (w - r.granted)) ∨
    (∃ c, Container env db db' j c ∧ EndAt env db j w + f = c) ∨ ∃ s, NextAny env db j w r s ∧ EndAt env db j w + f + env.sec + 1 = s
  down : r.pending < 0 → env.now ≤ EndAt env db j w → r.pending ≤ f ∧ f ≤ 0 ∧ env.now ≤ EndAt env db j w + f ∧
    (f = r.pending ∨ EndAt env db j w + f = env.now)

/-- Why a request is left for a later round. -/
def Waits (env : Env) (db db' : Db) (j : Job) (w : Int) (r : Wtc) : Prop :=
  0 < r.pending ∧ ((r.force = false ∧ env.now < EndAt env db j w - env.applyTime j.queue (w - r.granted)) ∨
    (∃ c, Container env db db' j c ∧ c ≤ EndAt env db j w) ∨ ∃ s, NextAny env db j w r s ∧ s ≤ EndAt env db j w + env.sec + 1)

theorem typeOf_ne_none {j : Job} {n : String} (h : ∃ v, ⟨n, v⟩ ∈ j.types) : typeOf j n ≠ none := by
  obtain ⟨v, hv⟩ := h
  intro hn
  unfold typeOf at hn
  rw [Option.map_eq_none_iff, List.find?_eq_none] at hn
  have := hn ⟨n, v⟩ (List.mem_reverse.2 hv)
  simp at this

theorem between_predicted {db d db' : Db} (h : Between db d db') {e : Entry} (hr : ∀ r, r ∈ e.rids ↔ Holds db e.job r) {k : Job} {s : Int} :
    (k ∈ d.jobs ∧ ∃ m ∈ d.molds, m.job = k.id ∧ (m.id, s) ∈ d.preds ∧ ∃ r, (m.id, r) ∈ d.gres ∧ r ∈ e.rids) ↔ Predicted db e.job k s := by
  have hs := h.static
  have key : ∀ (a b : Db), a.molds.map (fun m => (m.id, m.job)) = b.molds.map (fun m => (m.id, m.job)) → ∀ m ∈ a.molds, ∃ m' ∈ b.molds, m'.id = m.id ∧ m'.job = m.job := by
    intro a b hab m hm
    have : (m.id, m.job) ∈ a.molds.map (fun m => (m.id, m.job)) := List.mem_map.2 ⟨m, hm, rfl⟩
    rw [hab] at this
    obtain ⟨m', hm', he⟩ := List.mem_map.1 this
    simp only [Prod.mk.injEq] at he
    exact ⟨m', hm', he⟩
  unfold Predicted
  rw [hs.jobs]
  refine and_congr_right (fun _ => ?_)
  constructor
  · rintro ⟨m, hm, h1, h2, r, h3, h4⟩
    obtain ⟨m', hm', hi, hj⟩ := key d db hs.molds m hm
    rw [hs.preds] at h2
    rw [hs.gres] at h3
    exact ⟨m', hm', hj.trans h1, hi ▸ h2, r, hi ▸ h3, (hr r).1 h4⟩
  · rintro ⟨m, hm, h1, h2, r, h3, h4⟩
    obtain ⟨m', hm', hi, hj⟩ := key db d hs.molds.symm m hm
    rw [hs.preds, hs.gres]
    exact ⟨m', hm', hj.trans h1, hi ▸ h2, r, hi ▸ h3, (hr r).2 h4⟩

theorem between_end {db d db' : Db} (h : Between db d db') (env : Env) (e : Entry) : endOf env d e = EndAt env db e.job e.walltime := by
  unfold endOf EndAt
  rw [← susp_exact]
  unfold suspended
  rw [h.static.log]

theorem between_container {db d db' : Db} (h : Between db d db') {env : Env} {j : Job} {c : Int} (hc : ContainerEnds env d.jobs d.molds j c) :
    Container env db db' j c := by
  obtain ⟨v, hv, cid, hi, k, hk, hk1, hk2, m, hm, hm1, hm2⟩ := hc
  rw [h.static.jobs] at hk
  exact ⟨v, cid, typeOf_mem hv, (inner_exact env v cid).1 hi, k, hk, hk1, hk2, m, h.molds m hm, hm1, hm2⟩

/-- **C121, partial.** A round of walltime changes, whatever the order in which the server returns the rows, and even if it raises: nothing else
changes; the jobs that do not ask keep their walltimes and requests; for a job that asks, either nothing changes (and, when the round does not
raise, the request has to wait), or it is granted `f` seconds: the walltime increases by `f`, the pending time decreases by `f`, the granted time
increases by `f`, and `f` is fair: positive and at most what is pending and the increment for an increase, within the container, leaving the
security time before the next job, and as large as possible; between what is pending and zero for a reduction, not ending the job in the past.
Missing: the walltime of every moldable of the job is changed, not only that of the one assigned (`other_moldables_violated`); the container may
be the one before the round (`container_violated`); the flags of the request are lost (`force_lost_violated`); the round may raise
(`timesharing_violated`, `container_gone_violated`) and does when the metascheduler calls it (`call_violated`). -/
theorem round_partial (env : Env) (db : Db) (rows : List Row) (hr : rows.Perm (select db)) (k : Keys db) (hd : Distinct env)
    (hdates : Dates env db (process env rows db).1) (hnames : ∀ j ∈ db.jobs, j.name ≠ some "$job_name") :
    Static db (process env rows db).1 ∧
    (∀ jid, (¬ ∃ j m w, Asks db j m w ∧ j.id = jid) → Same db (process env rows db).1 jid) ∧
    ∀ j m w, Asks db j m w →
      (Same db (process env rows db).1 j.id ∧ ((process env rows db).2 = true → Waits env db (process env rows db).1 j m.walltime w)) ∨
      ∃ f w', Fair env db (process env rows db).1 j m.walltime w f ∧ Changed db (process env rows db).1 j.id (m.walltime + f) w' ∧
        w'.pending = w.pending - f ∧ w'.granted = w.granted + f := by
  obtain ⟨c1, c2, c3⟩ := considered_exact db rows hr k
  obtain ⟨r1, r2, r3, _⟩ := run_spec env (group rows) db c1
  unfold process at hdates ⊢
  generalize hres : run env (group rows) db = res at *
  refine ⟨r1, fun jid hj => r2 jid (fun hm => ?_), fun j m w ha => ?_⟩
  · obtain ⟨e, he, hid⟩ := List.mem_map.1 hm
    obtain ⟨m, hm1, _⟩ := (c2 e.job e.req e.walltime).2 ⟨e, he, rfl, rfl, rfl⟩
    exact hj ⟨e.job, m, e.req, hm1, hid⟩
  · obtain ⟨e, he, hj, hw, ht⟩ := (c2 j w m.walltime).1 ⟨m, ha, rfl⟩
    have hrid := c3 e he
    rcases r3 e he with ⟨hs, hwait⟩ | ⟨d, f, hb, hf, hch⟩
    · left
      refine ⟨hj ▸ hs, fun ht2 => ?_⟩
      obtain ⟨d, hb, hdw⟩ := hwait ht2
      obtain ⟨p1, p2⟩ := decide_wait hd hdw
      rw [between_end hb] at p2
      rw [← hj, ← hw, ← ht]
      refine ⟨p1, ?_⟩
      rcases p2 with ⟨a, _, c⟩ | ⟨c, a, b⟩ | ⟨s, ⟨kk, b1, b2, b3, b4, b5⟩, b6⟩
      · exact Or.inl ⟨a, c⟩
      · exact Or.inr (Or.inl ⟨c, between_container hb a, b⟩)
      · rw [between_end hb] at b5
        exact Or.inr (Or.inr ⟨s, ⟨kk, (between_predicted hb hrid).1 ⟨b1, b4⟩, b3, b2, b5⟩, b6⟩)
    · right
      rw [← hj, ← hw, ← ht]
      refine ⟨f, newReq e.req f, ?_, hch, rfl, rfl⟩
      have hrun : e.job.state = "Running" := by rw [hj]; exact ha.running
      have hjob : e.job ∈ db.jobs := by rw [hj]; exact ha.job
      have hwall : 0 ≤ e.walltime := by rw [ht]; exact hdates.walltime m (Or.inl ha.mold)
      have hstart := hdates.start e.job hjob hrun
      have hsus := suspended_nonneg env d e.job.id
      have hend : env.sec < endOf env d e := by unfold endOf; omega
      have hE := between_end hb env e
      have hsec := hdates.sec
      by_cases hp : 0 < e.req.pending
      · obtain ⟨u1, u2, u3, u4, u5, u6⟩ := decide_up hd hp hdates.sec hend (by
          rintro c ⟨v, hv, cid, hi, kk, hk, hk1, hk2, mm, hm, hm1, rfl⟩
          have h1 := hdates.walltime mm (hb.molds mm hm)
          rw [hb.static.jobs] at hk
          have h2 := hdates.start kk hk hk2
          omega) hf
        rw [hE] at u4 u5 u6
        refine ⟨fun _ => ⟨u1, u2⟩, fun _ => u3, fun _ hn => ?_, fun _ s hs => ?_, fun _ => ?_, fun hn => by omega⟩
        · obtain ⟨c, hc1, hc2⟩ := u4 (typeOf_ne_none hn)
          exact ⟨c, between_container hb hc1, hc2⟩
        · obtain ⟨kk, hpred, hns, hdel, hlt⟩ := hs
          obtain ⟨q1, q2⟩ := (between_predicted hb hrid).2 hpred
          exact u5 kk s q1 q2 hdel hns (hnames kk (hb.static.jobs ▸ q1)) hlt
        · rcases u6 with h | h | ⟨c, hc1, hc2⟩ | ⟨s, ⟨kk, b1, b2, b3, b4, b5⟩, b6⟩
          · exact Or.inl h
          · exact Or.inr (Or.inl h)
          · exact Or.inr (Or.inr (Or.inl ⟨c, between_container hb hc1, hc2⟩))
          · rw [hE] at b5
            exact Or.inr (Or.inr (Or.inr ⟨s, ⟨kk, (between_predicted hb hrid).1 ⟨b1, b4⟩, b3, b2, b5⟩, b6⟩))
      · refine ⟨fun h => absurd h hp, fun h => absurd h hp, fun h => absurd h hp, fun h => absurd h hp, fun h => absurd h hp, fun hn hle => ?_⟩
        obtain ⟨f', hf', hspec⟩ := decide_down (env := env) (db := d) hn
        rw [hf'] at hf
        simp only [Fit.give.injEq] at hf
        subst hf
        rw [hE] at hspec
        exact hspec hle

end Oar.WalltimeRound
