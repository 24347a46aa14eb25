import Verif.DataJobsProps

/-!
# Model and proofs of the resubmission of jobs (C66, C67)

`resubmit_job` (`oar/lib/job_handling.py`), called by `oarsub --resubmit` and, for the jobs which may be run again, by
`node_change_state`.
-/

namespace Oar.Submission

open Oar.Tools

/-! ## Model -/

/-- The columns of `jobs` (oar/lib/models.py:368-406) which are not in `SJob`; `id` is the identifier of the job. `name`,
`env`, `info_type`, `project`, `group`, directories, files, checkpoints and the like are in `rest`. -/
structure More where
  id : Nat
  type : String
  user : String
  submission : Int
  stop : Int
  message : String
  info : String
  exit : Option Int
  accounted : String
  assigned : Nat
  resubmit : Nat
  suspended : String
  rest : String
  deriving DecidableEq

/-- The tables: `chal` is `challenges` (job, private key and public key). -/
structure RDB where
  db : DB
  more : List More
  chal : List (Nat × String × String)
  deriving DecidableEq

/-- The levels of a group, copied for the group `gid` (oar/lib/job_handling.py:1085-1100). -/
def copyDescs (db : DB) (old gid : Nat) : DB :=
  { db with descs := db.descs ++ (db.descs.filter (fun d => d.group = old)).map (fun d => (⟨gid, d.type, d.value, d.order⟩ : SDesc)) }

/-- One group copied for the moldable `mid` (oar/lib/job_handling.py:1075-1100). -/
def copyGroup (mid : Nat) (db : DB) (g : SGrp) : DB :=
  copyDescs { db with ng := db.ng + 1, groups := db.groups ++ [(⟨db.ng, mid, g.prop⟩ : SGrp)] } g.id db.ng

/-- One moldable copied for the job `jid` (oar/lib/job_handling.py:1059-1100). -/
def copyMold (jid : Nat) (db : DB) (m : SMold) : DB :=
  let db1 : DB := { db with nm := db.nm + 1, molds := db.molds ++ [(⟨db.nm, jid, m.walltime⟩ : SMold)] }
  (db1.groups.filter (fun g => g.mold = m.id)).foldl (copyGroup db.nm) db1

/-- The request of the job `old` copied for the job `jid` (oar/lib/job_handling.py:1051-1100). -/
def copyRequest (db : DB) (old jid : Nat) : DB := (db.molds.filter (fun m => m.job = old)).foldl (copyMold jid) db

/-- The active states of `get_count_same_ssh_keys_current_jobs` (oar/lib/job_handling.py:1961-1973). -/
def keyStates : List String :=
  ["Waiting", "Hold", "toLaunch", "toError", "toAckReservation", "Launching", "Running", "Suspended", "Resuming"]

/-- Models `get_count_same_ssh_keys_current_jobs` (oar/lib/job_handling.py:1952-1980): the active jobs of the other users
with the same keys, if the private key is not empty. -/
def sameKeys (d : RDB) (user : String) (k : String × String) : Nat :=
  (d.chal.filter (fun c => c.2 = k && k.1 ≠ "" && d.db.jobs.any (fun j => j.id = c.1 && keyStates.contains j.state) &&
    d.more.any (fun m => m.id = c.1 && m.user ≠ user))).length

/-- The rows added by `resubmit_job` (oar/lib/job_handling.py:1019-1123): the row of the job is inserted again with another
identifier; `job.date` is not a column, and the start is kept since `job.reservation` is a text; when the job has no type the
insertion without values adds a row with the default ones. -/
def recreate (date : Int) (d : RDB) (j : SJob) (m : More) (keys : String × String) : RDB :=
  let new : Nat := d.db.nj
  let db1 : DB := copyRequest { d.db with nj := new + 1, jobs := d.db.jobs ++ [({ j with id := new, state := "Waiting" } : SJob)] } j.id new
  let ts : List (List Char) := (db1.types.filter (fun x => x.1 = j.id)).map (·.2)
  ⟨{ db1 with types := db1.types ++ (if ts = [] then [(0, [])] else ts.map (fun t => (new, t))), deps := db1.deps.map (fun x => (x.1, if x.2 = j.id then new else x.2)), logs := db1.logs ++ [(new, "Waiting", date)] },
    d.more ++ [({ m with id := new, resubmit := j.id, message := "", info := "", exit := none, assigned := 0 } : More)], d.chal ++ [(new, keys)]⟩

/-- Models `resubmit_job` (oar/lib/job_handling.py:978-1125): the code and the identifier of the new job. `user` is
OARDO_USER or "oar". `none` is the exception when the job has no challenge. -/
def resubmit (user : String) (date : Int) (d : RDB) (jid : Nat) : Option (Int × Nat × RDB) :=
  match d.db.jobs.find? (fun j => j.id = jid), d.more.find? (fun m => m.id = jid) with
  | some j, some m =>
    if m.type ≠ "PASSIVE" then some (-1, 0, d)
    else if j.state ≠ "Error" ∧ j.state ≠ "Terminated" ∧ j.state ≠ "Finishing" then some (-2, 0, d)
    else if user ≠ m.user ∧ user ≠ "oar" ∧ user ≠ "root" then some (-3, 0, d)
    else match d.chal.find? (fun c => c.1 = jid) with
      | none => none
      | some c =>
        if (c.2.2 ≠ "" ∨ c.2.1 ≠ "") ∧ 0 < sameKeys d user c.2 then some (-4, 0, d)
        else some (0, d.db.nj, recreate date d j m c.2)
  | _, _ => some (-5, 0, d)

/-! ## Copy of the request -/

/-- What the tables say of the levels of a group. -/
def descsView (db : DB) (gid : Nat) : List (Nat × List Char × Count) :=
  (db.descs.filter (fun d => d.group = gid)).map (fun d => (d.order, d.type, d.value))

def gview (db : DB) (mid : Nat) : List (List Char × List (Nat × List Char × Count)) :=
  (db.groups.filter (fun g => g.mold = mid)).map (fun g => (g.prop, descsView db g.id))

theorem requestOf_gview (db : DB) (jid : Nat) : requestOf db jid =
    (db.molds.filter (fun m => m.job = jid)).map (fun m => (m.walltime, gview db m.id)) := rfl

/-- A table extended with groups of the new moldable `mid`. -/
structure ExtG (db db' : DB) (mid : Nat) : Prop where
  valid : Valid db'
  ordered : Ordered db → Ordered db'
  nj : db'.nj = db.nj
  nm : db'.nm = db.nm
  ng : db.ng ≤ db'.ng
  jobs : db'.jobs = db.jobs
  molds : db'.molds = db.molds
  types : db'.types = db.types
  deps : db'.deps = db.deps
  logs : db'.logs = db.logs
  groups : ∀ m, m ≠ mid → db'.groups.filter (fun g => g.mold = m) = db.groups.filter (fun g => g.mold = m)
  descs : ∀ g < db.ng, db'.descs.filter (fun d => d.group = g) = db.descs.filter (fun d => d.group = g)

theorem ExtG.refl (db : DB) (hv : Valid db) (mid : Nat) : ExtG db db mid :=
  ⟨hv, id, rfl, rfl, Nat.le_refl _, rfl, rfl, rfl, rfl, rfl, fun _ _ => rfl, fun _ _ => rfl⟩

theorem ExtG.trans {a b c : DB} {mid : Nat} (h1 : ExtG a b mid) (h2 : ExtG b c mid) : ExtG a c mid :=
  ⟨h2.valid, fun h => h2.ordered (h1.ordered h), h2.nj.trans h1.nj, h2.nm.trans h1.nm, Nat.le_trans h1.ng h2.ng, h2.jobs.trans h1.jobs, h2.molds.trans h1.molds,
    h2.types.trans h1.types, h2.deps.trans h1.deps, h2.logs.trans h1.logs, fun m hm => (h2.groups m hm).trans (h1.groups m hm),
    fun g hg => (h2.descs g (Nat.lt_of_lt_of_le hg h1.ng)).trans (h1.descs g hg)⟩

theorem ExtG.descsView {a b : DB} {mid : Nat} (h : ExtG a b mid) (g : Nat) (hg : g < a.ng) : descsView b g = descsView a g := by
  unfold Submission.descsView
  rw [h.descs g hg]

theorem ExtG.gview {a b : DB} {mid : Nat} (hv : Valid a) (h : ExtG a b mid) (m : Nat) (hm : m ≠ mid) : gview b m = gview a m := by
  unfold Submission.gview
  rw [h.groups m hm]
  apply List.map_congr_left
  intro g hg
  rw [h.descsView g.id (hv.groups g (List.mem_filter.1 hg).1).1]

theorem copyGroup_ext (db : DB) (hv : Valid db) (mid : Nat) (hm : mid < db.nm) (g : SGrp) :
    ExtG db (copyGroup mid db g) mid ∧ gview (copyGroup mid db g) mid = gview db mid ++ [(g.prop, descsView db g.id)] := by
  have hdesc : ∀ k < db.ng, (copyGroup mid db g).descs.filter (fun d => d.group = k) = db.descs.filter (fun d => d.group = k) := by
    intro k hk
    show (db.descs ++ (db.descs.filter (fun d => d.group = g.id)).map (fun d => (⟨db.ng, d.type, d.value, d.order⟩ : SDesc))).filter (fun d => d.group = k) = _
    rw [List.filter_append, filter_none ((db.descs.filter _).map _), List.append_nil]
    intro d hd
    obtain ⟨x, _, rfl⟩ := List.mem_map.1 hd
    simp only [decide_eq_false_iff_not]; omega
  have hnew : (copyGroup mid db g).descs.filter (fun d => d.group = db.ng) =
      (db.descs.filter (fun d => d.group = g.id)).map (fun d => (⟨db.ng, d.type, d.value, d.order⟩ : SDesc)) := by
    show (db.descs ++ (db.descs.filter (fun d => d.group = g.id)).map (fun d => (⟨db.ng, d.type, d.value, d.order⟩ : SDesc))).filter (fun d => d.group = db.ng) = _
    rw [List.filter_append, filter_none db.descs, List.nil_append, filter_all]
    · intro d hd
      obtain ⟨x, _, rfl⟩ := List.mem_map.1 hd
      simp
    · intro d hd
      have := hv.descs d hd
      simp only [decide_eq_false_iff_not]; omega
  have hG : (copyGroup mid db g).groups = db.groups ++ [(⟨db.ng, mid, g.prop⟩ : SGrp)] := rfl
  refine ⟨⟨⟨hv.pos, hv.jobs, hv.molds, ?_, ?_, hv.types, hv.deps, hv.logs⟩, ?_, rfl, rfl, Nat.le_succ _, rfl, rfl, rfl, rfl, rfl, ?_, hdesc⟩, ?_⟩
  · intro x hx
    show x.id < db.ng + 1 ∧ x.mold < db.nm
    rw [hG] at hx
    rcases List.mem_append.1 hx with hx | hx
    · have := hv.groups x hx
      omega
    · have := List.mem_singleton.1 hx
      subst this
      exact ⟨Nat.lt_succ_self _, hm⟩
  · intro x hx
    show x.group < db.ng + 1
    rcases List.mem_append.1 hx with hx | hx
    · have := hv.descs x hx
      omega
    · obtain ⟨y, _, rfl⟩ := List.mem_map.1 hx
      exact Nat.lt_succ_self _
  · intro ho
    refine ⟨ho.jobs, ho.jpos, ho.molds, ?_, ?_, Nat.succ_pos _, ?_⟩
    · rw [hG, List.pairwise_append]
      refine ⟨ho.groups, List.pairwise_singleton _ _, fun a ha b hb => ?_⟩
      have := List.mem_singleton.1 hb
      subst this
      exact (hv.groups a ha).1
    · intro x hx
      rw [hG] at hx
      rcases List.mem_append.1 hx with hx | hx
      · exact ho.gpos x hx
      · have := List.mem_singleton.1 hx
        subst this
        exact ho.ng
    · show (db.descs ++ (db.descs.filter (fun d => d.group = g.id)).map (fun d => (⟨db.ng, d.type, d.value, d.order⟩ : SDesc))).Pairwise _
      rw [List.pairwise_append]
      refine ⟨ho.descs, ?_, fun a ha b hb e => ?_⟩
      · rw [List.pairwise_map]
        refine List.Pairwise.imp_of_mem ?_ (ho.descs.filter _)
        intro a b ha hb h _
        have ha := (List.mem_filter.1 ha).2
        have hb := (List.mem_filter.1 hb).2
        simp only [decide_eq_true_eq] at ha hb
        exact h (ha.trans hb.symm)
      · have := hv.descs a ha
        obtain ⟨y, _, rfl⟩ := List.mem_map.1 hb
        dsimp only at e
        omega
  · intro m hm
    rw [hG, List.filter_append, filter_none [_], List.append_nil]
    intro x hx
    have := List.mem_singleton.1 hx
    subst this
    simp only [decide_eq_false_iff_not]
    exact fun h => hm h.symm
  · unfold gview
    rw [hG, List.filter_append, List.map_append, filter_all [(⟨db.ng, mid, g.prop⟩ : SGrp)]]
    · congr 1
      · apply List.map_congr_left
        intro x hx
        have := (hv.groups x (List.mem_filter.1 hx).1).1
        unfold descsView
        rw [hdesc x.id this]
      · unfold descsView
        show [(g.prop, ((copyGroup mid db g).descs.filter (fun d => d.group = db.ng)).map (fun d => (d.order, d.type, d.value)))] = _
        rw [hnew, List.map_map]
        rfl
    · intro x hx
      have := List.mem_singleton.1 hx
      subst this
      simp

theorem copyGroups_ext (mid : Nat) (gs : List SGrp) : ∀ (db : DB), Valid db → mid < db.nm → (∀ g ∈ gs, g.id < db.ng) →
    ExtG db (gs.foldl (copyGroup mid) db) mid ∧
      gview (gs.foldl (copyGroup mid) db) mid = gview db mid ++ gs.map (fun g => (g.prop, descsView db g.id)) := by
  induction gs with
  | nil => intro db hv _ _; exact ⟨ExtG.refl db hv mid, by simp⟩
  | cons g gs ih =>
    intro db hv hm hg
    obtain ⟨h1, h2⟩ := copyGroup_ext db hv mid hm g
    have hm' : mid < (copyGroup mid db g).nm := by rw [h1.nm]; exact hm
    obtain ⟨h3, h4⟩ := ih (copyGroup mid db g) h1.valid hm' (fun x hx => Nat.lt_of_lt_of_le (hg x (List.mem_cons_of_mem _ hx)) h1.ng)
    refine ⟨h1.trans h3, ?_⟩
    rw [List.foldl_cons, h4, h2, List.append_assoc]
    congr 1
    rw [List.map_cons]
    show _ :: gs.map _ = _
    congr 1
    apply List.map_congr_left
    intro x hx
    rw [h1.descsView x.id (hg x (List.mem_cons_of_mem _ hx))]

/-- A table extended with moldables of the new job `jid`. -/
structure ExtM (db db' : DB) (jid : Nat) : Prop where
  valid : Valid db'
  ordered : Ordered db → (∀ m ∈ db.molds, m.job ≤ jid) → Ordered db' ∧ ∀ m ∈ db'.molds, m.job ≤ jid
  nj : db'.nj = db.nj
  jobs : db'.jobs = db.jobs
  types : db'.types = db.types
  deps : db'.deps = db.deps
  logs : db'.logs = db.logs
  nm : db.nm ≤ db'.nm
  molds : ∀ j, j ≠ jid → db'.molds.filter (fun m => m.job = j) = db.molds.filter (fun m => m.job = j)
  view : ∀ m < db.nm, gview db' m = gview db m

theorem ExtM.trans {a b c : DB} {jid : Nat} (h1 : ExtM a b jid) (h2 : ExtM b c jid) : ExtM a c jid :=
  ⟨h2.valid, fun h h' => h2.ordered (h1.ordered h h').1 (h1.ordered h h').2, h2.nj.trans h1.nj, h2.jobs.trans h1.jobs,
    h2.types.trans h1.types, h2.deps.trans h1.deps, h2.logs.trans h1.logs, Nat.le_trans h1.nm h2.nm, fun j hj => (h2.molds j hj).trans (h1.molds j hj),
    fun m hm => (h2.view m (Nat.lt_of_lt_of_le hm h1.nm)).trans (h1.view m hm)⟩

theorem ExtM.requestOf {a b : DB} {jid : Nat} (hv : Valid a) (h : ExtM a b jid) (j : Nat) (hj : j ≠ jid) : requestOf b j = requestOf a j := by
  rw [requestOf_gview, requestOf_gview, h.molds j hj]
  apply List.map_congr_left
  intro m hm
  rw [h.view m.id (hv.molds m (List.mem_filter.1 hm).1).1]

theorem copyMold_ext (db : DB) (hv : Valid db) (jid : Nat) (hj : jid < db.nj) (m : SMold) :
    ExtM db (copyMold jid db m) jid ∧ requestOf (copyMold jid db m) jid = requestOf db jid ++ [(m.walltime, gview db m.id)] := by
  have hv1 : Valid { db with nm := db.nm + 1, molds := db.molds ++ [(⟨db.nm, jid, m.walltime⟩ : SMold)] } := by
    refine ⟨hv.pos, hv.jobs, ?_, ?_, hv.descs, hv.types, hv.deps, hv.logs⟩
    · intro x hx
      show x.id < db.nm + 1 ∧ x.job < db.nj
      rcases List.mem_append.1 hx with hx | hx
      · have := hv.molds x hx
        omega
      · have := List.mem_singleton.1 hx
        subst this
        exact ⟨Nat.lt_succ_self _, hj⟩
    · intro x hx
      show x.id < db.ng ∧ x.mold < db.nm + 1
      have := hv.groups x hx
      omega
  obtain ⟨h1, h2⟩ := copyGroups_ext db.nm (db.groups.filter (fun g => g.mold = m.id)) { db with nm := db.nm + 1, molds := db.molds ++ [(⟨db.nm, jid, m.walltime⟩ : SMold)] } hv1
    (Nat.lt_succ_self _) (fun g hg => (hv.groups g (List.mem_filter.1 hg).1).1)
  have e : copyMold jid db m = (db.groups.filter (fun g => g.mold = m.id)).foldl (copyGroup db.nm) { db with nm := db.nm + 1, molds := db.molds ++ [(⟨db.nm, jid, m.walltime⟩ : SMold)] } := rfl
  rw [← e] at h1 h2
  have hM : (copyMold jid db m).molds = db.molds ++ [(⟨db.nm, jid, m.walltime⟩ : SMold)] := h1.molds
  have hview : ∀ k < db.nm, gview (copyMold jid db m) k = gview db k := by
    intro k hk
    rw [ExtG.gview hv1 h1 k (by omega)]
    rfl
  have hnew : gview (copyMold jid db m) db.nm = gview db m.id := by
    rw [h2]
    have : gview { db with nm := db.nm + 1, molds := db.molds ++ [(⟨db.nm, jid, m.walltime⟩ : SMold)] } db.nm = [] := by
      unfold gview
      rw [filter_none]
      · rfl
      · intro g hg
        have := (hv.groups g hg).2
        simp only [decide_eq_false_iff_not]; omega
    rw [this, List.nil_append]
    rfl
  refine ⟨⟨h1.valid, ?_, h1.nj, h1.jobs, h1.types, h1.deps, h1.logs, ?_, ?_, hview⟩, ?_⟩
  · intro ho hle
    have hle' : ∀ x ∈ (copyMold jid db m).molds, x.job ≤ jid := by
      intro x hx
      rw [hM] at hx
      rcases List.mem_append.1 hx with hx | hx
      · exact hle x hx
      · have := List.mem_singleton.1 hx
        subst this
        exact Nat.le_refl _
    refine ⟨h1.ordered ⟨ho.jobs, ho.jpos, ?_, ho.groups, ho.gpos, ho.ng, ho.descs⟩, hle'⟩
    show (db.molds ++ [(⟨db.nm, jid, m.walltime⟩ : SMold)]).Pairwise _
    rw [List.pairwise_append]
    refine ⟨ho.molds, List.pairwise_singleton _ _, fun a ha b hb => ?_⟩
    have := List.mem_singleton.1 hb
    subst this
    exact ⟨(hv.molds a ha).1, hle a ha⟩
  · rw [h1.nm]
    exact Nat.le_succ _
  · intro j hj'
    rw [hM, List.filter_append, filter_none [_], List.append_nil]
    intro x hx
    have := List.mem_singleton.1 hx
    subst this
    simp only [decide_eq_false_iff_not]
    exact fun h => hj' h.symm
  · rw [requestOf_gview, requestOf_gview, hM, List.filter_append, List.map_append, filter_all [(⟨db.nm, jid, m.walltime⟩ : SMold)]]
    · rw [List.map_singleton, hnew]
      congr 1
      apply List.map_congr_left
      intro x hx
      rw [hview x.id (hv.molds x (List.mem_filter.1 hx).1).1]
    · intro x hx
      have := List.mem_singleton.1 hx
      subst this
      simp

theorem copyMolds_ext (jid : Nat) (ms : List SMold) : ∀ (db : DB), Valid db → jid < db.nj → (∀ m ∈ ms, m.id < db.nm) →
    ExtM db (ms.foldl (copyMold jid) db) jid ∧
      requestOf (ms.foldl (copyMold jid) db) jid = requestOf db jid ++ ms.map (fun m => (m.walltime, gview db m.id)) := by
  induction ms with
  | nil =>
    intro db hv _ _
    exact ⟨⟨hv, fun h h' => ⟨h, h'⟩, rfl, rfl, rfl, rfl, rfl, Nat.le_refl _, fun _ _ => rfl, fun _ _ => rfl⟩, by simp⟩
  | cons m ms ih =>
    intro db hv hj hm
    obtain ⟨h1, h2⟩ := copyMold_ext db hv jid hj m
    obtain ⟨h3, h4⟩ := ih (copyMold jid db m) h1.valid (by rw [h1.nj]; exact hj) (fun x hx => Nat.lt_of_lt_of_le (hm x (List.mem_cons_of_mem _ hx)) h1.nm)
    refine ⟨h1.trans h3, ?_⟩
    rw [List.foldl_cons, h4, h2, List.append_assoc]
    congr 1
    rw [List.map_cons]
    show _ :: ms.map _ = _
    congr 1
    apply List.map_congr_left
    intro x hx
    rw [h1.view x.id (hm x (List.mem_cons_of_mem _ hx))]

/-- The copy of a request is the request, and the other jobs keep theirs. -/
theorem copyRequest_spec (db : DB) (hv : Valid db) (old jid : Nat) (hj : jid < db.nj) (hnew : ∀ m ∈ db.molds, m.job ≠ jid) :
    ExtM db (copyRequest db old jid) jid ∧ requestOf (copyRequest db old jid) jid = requestOf db old := by
  obtain ⟨h1, h2⟩ := copyMolds_ext jid (db.molds.filter (fun m => m.job = old)) db hv hj (fun m hm => (hv.molds m (List.mem_filter.1 hm).1).1)
  refine ⟨h1, ?_⟩
  have h0 : requestOf db jid = [] := by
    rw [requestOf_gview, filter_none]
    · rfl
    · intro m hm
      simpa using hnew m hm
  rw [h0, List.nil_append] at h2
  exact h2

/-! ## Specification -/

/-- The tables of the jobs agree: identifiers already used are below the next one, each job has one row of other columns
and one challenge. -/
structure RValid (d : RDB) : Prop where
  db : Valid d.db
  ordered : Ordered d.db
  more : d.more.map (·.id) = d.db.jobs.map (·.id)
  chal : d.chal.map (·.1) = d.db.jobs.map (·.id)

/-- What is needed to resubmit the job with the row `j` and the other columns `m`: a passive job which is over, asked by its
owner or an administrator, and no active job of another user has the same keys (of the job, if it has a private one). -/
def Resubmittable (user : String) (d : RDB) (j : SJob) (m : More) (keys : String × String) : Prop :=
  m.type = "PASSIVE" ∧ j.state ∈ ["Error", "Terminated", "Finishing"] ∧ user ∈ [m.user, "oar", "root"] ∧
    (keys.1 ≠ "" → ∀ j' ∈ d.db.jobs, ∀ m' ∈ d.more, m'.id = j'.id → (j'.id, keys) ∈ d.chal →
      j'.state ∈ ["Waiting", "Hold", "toLaunch", "toError", "toAckReservation", "Launching", "Running", "Suspended", "Resuming"] → m'.user = user)

/-! ## Proofs -/

theorem find_unique {α : Type} (k : α → Nat) (l : List α) (hn : (l.map k).Nodup) (a : α) (ha : a ∈ l) :
    l.find? (fun x => k x = k a) = some a := by
  induction l with
  | nil => cases ha
  | cons b l ih =>
    rw [List.map_cons, List.nodup_cons] at hn
    rcases List.mem_cons.1 ha with h | h
    · subst h
      simp
    · rw [List.find?_cons_of_neg]
      · exact ih hn.2 h
      · simp only [decide_eq_true_eq]
        intro e
        exact hn.1 (e ▸ List.mem_map.2 ⟨a, h, rfl⟩)

theorem sameKeys_pos (user : String) (d : RDB) (hv : RValid d) (keys : String × String) :
    sameKeys d user keys = 0 ↔ (keys.1 ≠ "" → ∀ j' ∈ d.db.jobs, ∀ m' ∈ d.more, m'.id = j'.id → (j'.id, keys) ∈ d.chal →
      j'.state ∈ keyStates → m'.user = user) := by
  have hnd : (d.db.jobs.map (·.id)).Nodup := jobs_nodup _ hv.ordered.jobs
  unfold sameKeys
  rw [List.length_eq_zero_iff, List.filter_eq_nil_iff]
  constructor
  · intro h hk j' hj m' hm e hc hs
    have := h _ hc
    simp only [Bool.and_eq_true, decide_eq_true_eq, List.any_eq_true, not_and, not_exists] at this
    have := this ⟨⟨trivial, hk⟩, ⟨j', hj, rfl, by simpa using hs⟩⟩ m' hm e
    exact Classical.byContradiction fun hne => this hne
  · rintro h ⟨i, k⟩ hc hb
    simp only [Bool.and_eq_true, decide_eq_true_eq, List.any_eq_true] at hb
    obtain ⟨⟨⟨rfl, hk⟩, ⟨j', hj, rfl, hs⟩⟩, m', hm, e, hu⟩ := hb
    exact hu (h hk j' hj m' hm e hc (by simpa using hs))

theorem resubmit_reads (d : RDB) (hv : RValid d) (j : SJob) (hj : j ∈ d.db.jobs) (m : More) (hm : m ∈ d.more) (e : m.id = j.id)
    (keys : String × String) (hk : (j.id, keys) ∈ d.chal) :
    d.db.jobs.find? (fun x => x.id = j.id) = some j ∧ d.more.find? (fun x => x.id = j.id) = some m ∧ d.chal.find? (fun c => c.1 = j.id) = some (j.id, keys) := by
  have hnd : (d.db.jobs.map (·.id)).Nodup := jobs_nodup _ hv.ordered.jobs
  refine ⟨find_unique (fun x : SJob => x.id) _ hnd j hj, ?_, ?_⟩
  · rw [← e]
    exact find_unique (fun x : More => x.id) _ (hv.more ▸ hnd) m hm
  · exact find_unique (fun x : Nat × String × String => x.1) _ (hv.chal ▸ hnd) (j.id, keys) hk

/-- C66: a resubmission succeeds exactly for a passive job which is over, asked by its owner or an administrator, when no other user
has an active job with its keys; otherwise an error is returned and nothing changes. -/
theorem resubmit_iff (user : String) (date : Int) (d : RDB) (hv : RValid d) (j : SJob) (hj : j ∈ d.db.jobs) (m : More) (hm : m ∈ d.more) (e : m.id = j.id)
    (keys : String × String) (hk : (j.id, keys) ∈ d.chal) :
    (Resubmittable user d j m keys → ∃ d', resubmit user date d j.id = some (0, d.db.nj, d')) ∧
    (¬ Resubmittable user d j m keys → ∃ c : Int, c ≠ 0 ∧ resubmit user date d j.id = some (c, 0, d)) := by
  obtain ⟨h1, h2, h3⟩ := resubmit_reads d hv j hj m hm e keys hk
  unfold resubmit
  rw [h1, h2, h3]
  dsimp only
  by_cases c1 : m.type ≠ "PASSIVE"
  · rw [if_pos c1]
    exact ⟨fun h => absurd h.1 c1, fun _ => ⟨-1, by decide, rfl⟩⟩
  rw [if_neg c1]
  by_cases c2 : j.state ≠ "Error" ∧ j.state ≠ "Terminated" ∧ j.state ≠ "Finishing"
  · rw [if_pos c2]
    refine ⟨fun h => ?_, fun _ => ⟨-2, by decide, rfl⟩⟩
    have := h.2.1
    simp only [List.mem_cons, List.not_mem_nil, or_false] at this
    rcases this with h | h | h
    · exact absurd h c2.1
    · exact absurd h c2.2.1
    · exact absurd h c2.2.2
  rw [if_neg c2]
  by_cases c3 : user ≠ m.user ∧ user ≠ "oar" ∧ user ≠ "root"
  · rw [if_pos c3]
    refine ⟨fun h => ?_, fun _ => ⟨-3, by decide, rfl⟩⟩
    have := h.2.2.1
    simp only [List.mem_cons, List.not_mem_nil, or_false] at this
    rcases this with h | h | h
    · exact absurd h c3.1
    · exact absurd h c3.2.1
    · exact absurd h c3.2.2
  rw [if_neg c3]
  by_cases c4 : (keys.2 ≠ "" ∨ keys.1 ≠ "") ∧ 0 < sameKeys d user keys
  · rw [if_pos c4]
    refine ⟨fun h => ?_, fun _ => ⟨-4, by decide, rfl⟩⟩
    have := (sameKeys_pos user d hv keys).2 h.2.2.2
    omega
  rw [if_neg c4]
  refine ⟨fun _ => ⟨_, rfl⟩, fun h => absurd ⟨?_, ?_, ?_, ?_⟩ h⟩
  · exact Classical.byContradiction c1
  · simp only [List.mem_cons, List.not_mem_nil, or_false]
    by_cases a : j.state = "Error"
    · exact Or.inl a
    · by_cases b : j.state = "Terminated"
      · exact Or.inr (Or.inl b)
      · exact Or.inr (Or.inr (Classical.byContradiction fun hc => c2 ⟨a, b, hc⟩))
  · simp only [List.mem_cons, List.not_mem_nil, or_false]
    by_cases a : user = m.user
    · exact Or.inl a
    · by_cases b : user = "oar"
      · exact Or.inr (Or.inl b)
      · exact Or.inr (Or.inr (Classical.byContradiction fun hc => c3 ⟨a, b, hc⟩))
  · intro hne
    refine (sameKeys_pos user d hv keys).1 ?_ hne
    have : ¬ 0 < sameKeys d user keys := fun h => c4 ⟨Or.inr hne, h⟩
    omega

/-- C66: an absent job cannot be resubmitted. -/
theorem resubmit_absent (user : String) (date : Int) (d : RDB) (jid : Nat) (h : ∀ j ∈ d.db.jobs, j.id ≠ jid) :
    resubmit user date d jid = some (-5, 0, d) := by
  unfold resubmit
  rw [List.find?_eq_none.2 (by intro x hx; simpa using h x hx)]

/-- The tables after the rows are added. -/
theorem recreate_spec (date : Int) (d : RDB) (hv : RValid d) (j : SJob) (hj : j ∈ d.db.jobs) (m : More) (keys : String × String) :
    RValid (recreate date d j m keys) ∧ (recreate date d j m keys).db.jobs = d.db.jobs ++ [({ j with id := d.db.nj, state := "Waiting" } : SJob)] ∧
    requestOf (recreate date d j m keys).db d.db.nj = requestOf d.db j.id ∧ typesOf (recreate date d j m keys).db d.db.nj = typesOf d.db j.id ∧
    depsOf (recreate date d j m keys).db d.db.nj = [] ∧ logsOf (recreate date d j m keys).db d.db.nj = [("Waiting", date)] ∧
    ∀ i < d.db.nj, requestOf (recreate date d j m keys).db i = requestOf d.db i ∧ (0 < i → typesOf (recreate date d j m keys).db i = typesOf d.db i) ∧
      logsOf (recreate date d j m keys).db i = logsOf d.db i ∧
      depsOf (recreate date d j m keys).db i = (depsOf d.db i).map (fun x => if x = j.id then d.db.nj else x) := by
  have hlt : j.id < d.db.nj := (hv.db.jobs j hj).1
  have hv0 : Valid { d.db with nj := d.db.nj + 1, jobs := d.db.jobs ++ [({ j with id := d.db.nj, state := "Waiting" } : SJob)] } := by
    refine ⟨Nat.succ_pos _, ?_, ?_, hv.db.groups, hv.db.descs, ?_, ?_, ?_⟩
    · intro x hx
      show x.id < d.db.nj + 1 ∧ x.arrayId < d.db.nj + 1
      rcases List.mem_append.1 hx with hx | hx
      · have := hv.db.jobs x hx
        omega
      · have := List.mem_singleton.1 hx
        subst this
        have := (hv.db.jobs j hj).2
        dsimp only
        omega
    · intro x hx
      have := hv.db.molds x hx
      show x.id < d.db.nm ∧ x.job < d.db.nj + 1
      omega
    · intro x hx
      exact Nat.lt_succ_of_lt (hv.db.types x hx)
    · intro x hx
      exact Nat.lt_succ_of_lt (hv.db.deps x hx)
    · intro x hx
      exact Nat.lt_succ_of_lt (hv.db.logs x hx)
  have ho0 : Ordered { d.db with nj := d.db.nj + 1, jobs := d.db.jobs ++ [({ j with id := d.db.nj, state := "Waiting" } : SJob)] } := by
    refine ⟨?_, ?_, hv.ordered.molds, hv.ordered.groups, hv.ordered.gpos, hv.ordered.ng, hv.ordered.descs⟩
    · rw [List.pairwise_append]
      refine ⟨hv.ordered.jobs, List.pairwise_singleton _ _, fun a ha b hb => ?_⟩
      have := List.mem_singleton.1 hb
      subst this
      exact (hv.db.jobs a ha).1
    · intro x hx
      rcases List.mem_append.1 hx with hx | hx
      · exact hv.ordered.jpos x hx
      · have := List.mem_singleton.1 hx
        subst this
        exact hv.db.pos
  obtain ⟨h1, h2⟩ := copyRequest_spec { d.db with nj := d.db.nj + 1, jobs := d.db.jobs ++ [({ j with id := d.db.nj, state := "Waiting" } : SJob)] } hv0 j.id d.db.nj
    (Nat.lt_succ_self _) (fun x hx => by have := (hv.db.molds x hx).2; omega)
  have h3 : ∀ i ≠ d.db.nj, requestOf (copyRequest { d.db with nj := d.db.nj + 1, jobs := d.db.jobs ++ [({ j with id := d.db.nj, state := "Waiting" } : SJob)] } j.id d.db.nj) i = requestOf d.db i :=
    fun i hi => ExtM.requestOf hv0 h1 i hi
  have ho1 := (h1.ordered ho0 (fun x hx => Nat.le_of_lt (hv.db.molds x hx).2)).1
  have h2' : requestOf (copyRequest { d.db with nj := d.db.nj + 1, jobs := d.db.jobs ++ [({ j with id := d.db.nj, state := "Waiting" } : SJob)] } j.id d.db.nj) d.db.nj = requestOf d.db j.id := h2
  have hn := h1.nj
  have hjb := h1.jobs
  have ht := h1.types
  have hd := h1.deps
  have hl := h1.logs
  have hv1 := h1.valid
  unfold recreate
  dsimp only
  clear h1 h2
  generalize copyRequest { d.db with nj := d.db.nj + 1, jobs := d.db.jobs ++ [({ j with id := d.db.nj, state := "Waiting" } : SJob)] } j.id d.db.nj = db1 at *
  dsimp only at hn hjb ht hd hl
  rw [ht, hd, hl]
  have hts : ∀ x ∈ (if (d.db.types.filter (fun x => x.1 = j.id)).map (·.2) = [] then [(0, [])] else ((d.db.types.filter (fun x => x.1 = j.id)).map (·.2)).map (fun t => (d.db.nj, t))),
      x.1 = 0 ∨ x.1 = d.db.nj := by
    intro x hx
    split at hx
    · rw [List.mem_singleton.1 hx]
      exact Or.inl rfl
    · obtain ⟨t, _, rfl⟩ := List.mem_map.1 hx
      exact Or.inr rfl
  refine ⟨⟨⟨hv1.pos, hv1.jobs, hv1.molds, hv1.groups, hv1.descs, ?_, ?_, ?_⟩, ⟨ho1.jobs, ho1.jpos, ho1.molds, ho1.groups, ho1.gpos, ho1.ng, ho1.descs⟩, ?_, ?_⟩, hjb, h2', ?_, ?_, ?_, ?_⟩
  · intro x hx
    show x.1 < db1.nj
    rw [hn]
    rcases List.mem_append.1 hx with hx | hx
    · exact Nat.lt_succ_of_lt (hv.db.types x hx)
    · rcases hts x hx with h | h
      · rw [h]
        exact Nat.succ_pos _
      · rw [h]
        exact Nat.lt_succ_self _
  · intro x hx
    show x.1 < db1.nj
    obtain ⟨y, hy, rfl⟩ := List.mem_map.1 hx
    rw [hn]
    exact Nat.lt_succ_of_lt (hv.db.deps y hy)
  · intro x hx
    show x.1 < db1.nj
    rw [hn]
    rcases List.mem_append.1 hx with hx | hx
    · exact Nat.lt_succ_of_lt (hv.db.logs x hx)
    · rw [List.mem_singleton.1 hx]
      exact Nat.lt_succ_self _
  · show (d.more ++ [_]).map _ = db1.jobs.map _
    rw [hjb, List.map_append, List.map_append, hv.more]
    rfl
  · show (d.chal ++ [_]).map _ = db1.jobs.map _
    rw [hjb, List.map_append, List.map_append, hv.chal]
    rfl
  · show ((d.db.types ++ _).filter (fun x => x.1 = d.db.nj)).map (·.2) = (d.db.types.filter (fun x => x.1 = j.id)).map (·.2)
    split
    · rename_i h0
      rw [h0, List.filter_append, filter_none d.db.types _ (fun x hx => by have := hv.db.types x hx; simp only [decide_eq_false_iff_not]; omega),
        filter_none [_]]
      · rfl
      · intro x hx
        rw [List.mem_singleton.1 hx]
        have := hv.db.pos
        simp only [decide_eq_false_iff_not]; omega
    · exact assoc_new d.db.types _ d.db.nj (fun x hx => by have := hv.db.types x hx; omega)
  · show ((d.db.deps.map (fun x => (x.1, if x.2 = j.id then d.db.nj else x.2))).filter (fun x => x.1 = d.db.nj)).map (·.2) = []
    rw [filter_none]
    · rfl
    · intro x hx
      obtain ⟨y, hy, rfl⟩ := List.mem_map.1 hx
      have := hv.db.deps y hy
      simp only [decide_eq_false_iff_not]; omega
  · exact assoc_new d.db.logs [("Waiting", date)] d.db.nj (fun x hx => by have := hv.db.logs x hx; omega)
  · intro i hi
    refine ⟨h3 i (Nat.ne_of_lt hi), ?_, ?_, ?_⟩
    · intro h0
      exact assoc_view d.db.types _ i (fun x hx => by
        rcases hts x hx with h | h <;> omega)
    · exact assoc_view d.db.logs [(d.db.nj, "Waiting", date)] i (fun x hx => by
        rw [List.mem_singleton.1 hx]
        exact fun h => by dsimp only at h; omega)
    · show ((d.db.deps.map (fun x => (x.1, if x.2 = j.id then d.db.nj else x.2))).filter (fun x => x.1 = i)).map (·.2) = ((d.db.deps.filter (fun x => x.1 = i)).map (·.2)).map _
      rw [List.filter_map, List.map_map, List.map_map]
      rfl

theorem resubmit_ok (user : String) (date : Int) (d d' : RDB) (hv : RValid d) (j : SJob) (hj : j ∈ d.db.jobs) (m : More) (hm : m ∈ d.more) (e : m.id = j.id)
    (keys : String × String) (hk : (j.id, keys) ∈ d.chal) (c : Nat) (h : resubmit user date d j.id = some (0, c, d')) :
    m.type = "PASSIVE" ∧ c = d.db.nj ∧ d' = recreate date d j m keys := by
  obtain ⟨h1, h2, h3⟩ := resubmit_reads d hv j hj m hm e keys hk
  unfold resubmit at h
  rw [h1, h2, h3] at h
  dsimp only at h
  by_cases c1 : m.type ≠ "PASSIVE"
  · rw [if_pos c1] at h
    cases h
  rw [if_neg c1] at h
  by_cases c2 : j.state ≠ "Error" ∧ j.state ≠ "Terminated" ∧ j.state ≠ "Finishing"
  · rw [if_pos c2] at h
    cases h
  rw [if_neg c2] at h
  by_cases c3 : user ≠ m.user ∧ user ≠ "oar" ∧ user ≠ "root"
  · rw [if_pos c3] at h
    cases h
  rw [if_neg c3] at h
  by_cases c4 : (keys.2 ≠ "" ∨ keys.1 ≠ "") ∧ 0 < sameKeys d user keys
  · rw [if_pos c4] at h
    cases h
  rw [if_neg c4] at h
  have h := Option.some.inj h
  simp only [Prod.mk.injEq, true_and] at h
  exact ⟨Classical.byContradiction c1, h.1.symm, h.2.symm⟩

/-- C66 (partial, see `resubmit_fresh_violated`): a successful resubmission adds one job, waiting, with the next identifier, the
command, the queue, the properties, the owner and the keys of the old one and which refers to it; it has the same request
(alternatives, groups, levels, in order) and the same types, and the only log of its states; the jobs which depended on the old one depend
on the new one, and otherwise nothing changes for the other jobs. -/
theorem resubmit_creates_partial (user : String) (date : Int) (d d' : RDB) (hv : RValid d) (j : SJob) (hj : j ∈ d.db.jobs) (m : More) (hm : m ∈ d.more) (e : m.id = j.id)
    (keys : String × String) (hk : (j.id, keys) ∈ d.chal) (c : Nat) (h : resubmit user date d j.id = some (0, c, d')) :
    RValid d' ∧ (∀ x ∈ d.db.jobs, x.id < c) ∧
      (∃ row, d'.db.jobs = d.db.jobs ++ [row] ∧ row.id = c ∧ row.state = "Waiting" ∧ row.command = j.command ∧ row.queue = j.queue ∧
        row.props = j.props ∧ row.reservation = j.reservation) ∧
      (∃ m', d'.more = d.more ++ [m'] ∧ m'.id = c ∧ m'.resubmit = j.id ∧ m'.user = m.user ∧ m'.type = "PASSIVE" ∧ m'.exit = none ∧ m'.message = "" ∧
        m'.info = "" ∧ m'.assigned = 0 ∧ m'.rest = m.rest) ∧
      d'.chal = d.chal ++ [(c, keys)] ∧
      requestOf d'.db c = requestOf d.db j.id ∧ typesOf d'.db c = typesOf d.db j.id ∧ depsOf d'.db c = [] ∧ logsOf d'.db c = [("Waiting", date)] ∧
      ∀ x ∈ d.db.jobs, requestOf d'.db x.id = requestOf d.db x.id ∧ typesOf d'.db x.id = typesOf d.db x.id ∧ logsOf d'.db x.id = logsOf d.db x.id ∧
        depsOf d'.db x.id = (depsOf d.db x.id).map (fun y => if y = j.id then c else y) := by
  obtain ⟨hp, rfl, rfl⟩ := resubmit_ok user date d d' hv j hj m hm e keys hk c h
  obtain ⟨h1, h2, h3, h4, h5, h6, h7⟩ := recreate_spec date d hv j hj m keys
  refine ⟨h1, fun x hx => (hv.db.jobs x hx).1, ⟨_, h2, rfl, rfl, rfl, rfl, rfl, rfl⟩, ⟨_, rfl, rfl, rfl, rfl, hp, rfl, rfl, rfl, rfl, rfl⟩, rfl, h3, h4, h5, h6, ?_⟩
  intro x hx
  obtain ⟨a, b, c, e⟩ := h7 x.id (hv.db.jobs x hx).1
  exact ⟨a, b (hv.ordered.jpos x hx), c, e⟩

/-- C66: the schedulers read for the resubmitted job the request of the old one (its last group may come twice, as
for any job). -/
theorem resubmitted_is_scheduled (user : String) (date : Int) (d d' : RDB) (hv : RValid d) (hc : Complete d.db) (j : SJob) (hj : j ∈ d.db.jobs) (m : More) (hm : m ∈ d.more)
    (e : m.id = j.id) (keys : String × String) (hk : (j.id, keys) ∈ d.chal) (c : Nat) (h : resubmit user date d j.id = some (0, c, d'))
    (sec be : Int) (jids : List Nat) (hi : c ∈ jids) :
    ∃ out r, getDataJobs sec be d'.db jids = some out ∧ dataOf out c = some r ∧
      (r.map (·.2) = asRead sec be j.props (requestOf d.db j.id) ∨ LastGroupTwice (asRead sec be j.props (requestOf d.db j.id)) (r.map (·.2))) := by
  obtain ⟨hp, rfl, rfl⟩ := resubmit_ok user date d d' hv j hj m hm e keys hk c h
  obtain ⟨h1, h2, h3, h4, h5, h6, h7⟩ := recreate_spec date d hv j hj m keys
  have hc' : Complete (recreate date d j m keys).db := by
    intro x hx
    rw [h2] at hx
    rcases List.mem_append.1 hx with hx | hx
    · rw [(h7 x.id (hv.db.jobs x hx).1).1]
      exact hc x hx
    · rw [List.mem_singleton.1 hx]
      dsimp only
      rw [h3]
      exact hc j hj
  have hmem : ({ j with id := d.db.nj, state := "Waiting" } : SJob) ∈ (recreate date d j m keys).db.jobs := by
    rw [h2]
    simp
  obtain ⟨out, r, a, b, c⟩ := data_read sec be _ h1.ordered hc' jids _ hmem hi
  dsimp only at a b c
  rw [h3] at c
  exact ⟨out, r, a, b, c⟩

/-! ## Examples -/

/-- A finished and accounted job with two alternatives, a job which depends on it, a batch reservation. -/
def exR : RDB :=
  ⟨⟨10, 20, 30,
    [⟨4, 4, 1, txt "./a.out", "Error", "None", 1000, txt "mem>1", "default"⟩, ⟨5, 5, 1, txt "x", "Waiting", "None", 0, [], "default"⟩,
      ⟨6, 6, 1, txt "y", "Terminated", "Scheduled", 500, [], "default"⟩],
    [⟨7, 4, 3600⟩, ⟨8, 4, 7200⟩, ⟨9, 5, 60⟩, ⟨11, 6, 60⟩], [⟨8, 7, []⟩, ⟨9, 7, txt "gpu=1"⟩, ⟨10, 8, []⟩, ⟨11, 9, []⟩, ⟨12, 11, []⟩],
    [⟨8, txt "host", .num (txt "2"), 0⟩, ⟨8, txt "cpu", .num (txt "1"), 1⟩, ⟨9, txt "host", .all, 0⟩, ⟨10, txt "host", .num (txt "1"), 0⟩,
      ⟨11, txt "host", .num (txt "1"), 0⟩, ⟨12, txt "host", .num (txt "1"), 0⟩],
    [(4, txt "idempotent")], [(5, 4), (4, 2)], [(4, "Waiting", 1), (4, "Error", 3)]⟩,
   [⟨4, "PASSIVE", "bob", 900, 2000, "m", "i", some 3, "YES", 7, 0, "YES", "r"⟩, ⟨5, "PASSIVE", "eve", 900, 0, "", "", none, "NO", 0, 0, "NO", ""⟩,
     ⟨6, "PASSIVE", "eve", 400, 600, "", "", none, "YES", 11, 0, "NO", ""⟩],
   [(4, "k", "p"), (5, "", ""), (6, "", "")]⟩

theorem exR_valid : RValid exR := by
  refine ⟨⟨?_, ?_, ?_, ?_, ?_, ?_, ?_, ?_⟩, ⟨?_, ?_, ?_, ?_, ?_, ?_, ?_⟩, ?_, ?_⟩ <;> decide +kernel

theorem exR_complete : Complete exR.db := by
  unfold Complete
  decide +kernel

/-- C66, not vacuous: the job is resubmitted by its owner, and not by another user. -/
example : ∃ d', resubmit "bob" 3000 exR 4 = some (0, 10, d') ∧ (requestOf d'.db 10).map (·.1) = [3600, 7200] ∧ (requestOf d'.db 10).map (fun x => x.2.length) = [2, 1] ∧
    depsOf d'.db 5 = [10] ∧ typesOf d'.db 10 = [txt "idempotent"] :=
  ⟨_, rfl, by decide +kernel, by decide +kernel, by decide +kernel, by decide +kernel⟩

example : resubmit "eve" 3000 exR 4 = some (-3, 0, exR) ∧ resubmit "eve" 3000 exR 5 = some (-2, 0, exR) ∧ resubmit "eve" 3000 exR 7 = some (-5, 0, exR) := by
  decide +kernel

/-- C66 (violated): the new job keeps the dates of the old one, its suspension and its place in an array; it does not wait
for what the old job waited for; and since it is marked as accounted its consumption will never be accounted. -/
theorem resubmit_fresh_violated : ∃ d' row m', resubmit "bob" 3000 exR 4 = some (0, 10, d') ∧ row ∈ d'.db.jobs ∧ row.id = 10 ∧ m' ∈ d'.more ∧ m'.id = 10 ∧
    row.start = 1000 ∧ m'.stop = 2000 ∧ m'.submission = 900 ∧ m'.suspended = "YES" ∧ m'.accounted = "YES" ∧ row.arrayId = 4 ∧
    depsOf exR.db 4 = [2] ∧ depsOf d'.db 10 = [] :=
  ⟨_, ⟨10, 4, 1, txt "./a.out", "Waiting", "None", 1000, txt "mem>1", "default"⟩, ⟨10, "PASSIVE", "bob", 900, 2000, "", "", none, "YES", 0, 4, "YES", "r"⟩,
    rfl, by decide +kernel, rfl, by decide +kernel, rfl, rfl, rfl, rfl, rfl, rfl, rfl, by decide +kernel, by decide +kernel⟩

/-- C66 (violated): a batch reservation is resubmitted although the message of the error says it is not: the new job waits with an
accepted reservation in the past. -/
theorem resubmit_reservation_violated : ∃ d' row, resubmit "eve" 3000 exR 6 = some (0, 10, d') ∧ row ∈ d'.db.jobs ∧ row.id = 10 ∧ row.state = "Waiting" ∧
    row.reservation = "Scheduled" ∧ row.start < 3000 :=
  ⟨_, ⟨10, 6, 1, txt "y", "Waiting", "Scheduled", 500, [], "default"⟩, rfl, by decide +kernel, rfl, rfl, rfl, by decide⟩

/-- C66 (violated): the resubmission of a job without type adds a row of type for the absent job 0. -/
theorem resubmit_types_violated : ∃ d', resubmit "eve" 3000 exR 6 = some (0, 10, d') ∧ typesOf exR.db 0 = [] ∧ typesOf d'.db 0 = [[]] :=
  ⟨_, rfl, by decide +kernel, by decide +kernel⟩

end Oar.Submission
