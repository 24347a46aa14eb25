import Verif.SubmissionLemmas
import Verif.JobTypesProps

/-!
# C38, C39: quotas and arrays of jobs at submission
-/

namespace Oar.Submission

open Oar.Tools

/-! ## Specification -/

/-- What the tables say of a job is what was asked. -/
def RecordedAs (dw date : Int) (p : Params) (db : DB) (jid : Nat) : Prop :=
  requestOf db jid = expected dw p.request ∧ typesOf db jid = p.types ∧ depsOf db jid = p.deps ∧
    logsOf db jid = [(if p.hold then "Hold" else "Waiting", date)]

/-- What the tables say of a job is unchanged. -/
def SameJob (db db' : DB) (jid : Nat) : Prop :=
  requestOf db' jid = requestOf db jid ∧ typesOf db' jid = typesOf db jid ∧ depsOf db' jid = depsOf db jid ∧ logsOf db' jid = logsOf db jid

/-- The properties given to the k-th job of an array with job keys: those of the administrator are added each time. -/
def propsAt (p : Params) : Nat → List Char
  | 0 => p.props
  | k + 1 => withAdmin { p with props := propsAt p k }

/-! ## One job -/

theorem assoc_view {β : Type} (l m : List (Nat × β)) (k : Nat) (h : ∀ x ∈ m, x.1 ≠ k) :
    ((l ++ m).filter (fun x => x.1 = k)).map (·.2) = (l.filter (fun x => x.1 = k)).map (·.2) := by
  rw [List.filter_append, filter_none m _ (fun x hx => by simpa using h x hx), List.append_nil]

theorem assoc_new {β : Type} (l : List (Nat × β)) (m : List β) (k : Nat) (h : ∀ x ∈ l, x.1 ≠ k) :
    ((l ++ m.map (fun b => (k, b))).filter (fun x => x.1 = k)).map (·.2) = m := by
  rw [List.filter_append, filter_none l _ (fun x hx => by simpa using h x hx), List.nil_append, filter_all, List.map_map]
  · conv => rhs; rw [← List.map_id m]
    rfl
  · intro x hx
    obtain ⟨b, _, rfl⟩ := List.mem_map.1 hx
    simp

/-- The tables after a request was inserted for the job `jid`, the next identifier. -/
theorem insRequest_spec (dw : Int) (db : DB) (hv : Valid db) (row : SJob) (req : List Inst) (hr : row.id ≤ db.nj ∧ row.arrayId ≤ db.nj) :
    let db1 := insRequest dw { db with nj := db.nj + 1, jobs := db.jobs ++ [row] } db.nj req
    Valid db1 ∧ db1.nj = db.nj + 1 ∧ db1.jobs = db.jobs ++ [row] ∧ db1.types = db.types ∧ db1.deps = db.deps ∧ db1.logs = db.logs ∧
      requestOf db1 db.nj = expected dw req ∧ ∀ jid < db.nj, requestOf db1 jid = requestOf db jid := by
  dsimp only
  rw [insRequest_eq dw { db with nj := db.nj + 1, jobs := db.jobs ++ [row] } db.nj req (fun m hm => by have := (hv.molds m hm).2; omega) (fun g hg => (hv.groups g hg).2)]
  have hblk : ∀ b ∈ blocksOf db.nm req, db.nm ≤ b.1 ∧ b.1 < db.nm + req.length := by
    intro b hb
    have : b.1 ∈ (blocksOf db.nm req).map (·.1) := List.mem_map.2 ⟨b, hb, rfl⟩
    rw [blocksOf_fst, List.mem_range'_1] at this
    exact this
  have hnd : ((blocksOf db.nm req).map (·.1)).Nodup := by
    rw [blocksOf_fst]; exact List.nodup_range' _
  refine ⟨⟨by show 0 < db.nj + 1; omega, ?_, ?_, ?_, ?_, ?_, ?_, ?_⟩, rfl, rfl, rfl, rfl, rfl, ?_, ?_⟩
  · intro j hj
    rcases List.mem_append.1 hj with hj | hj
    · have := hv.jobs j hj
      show j.id < db.nj + 1 ∧ j.arrayId < db.nj + 1
      omega
    · have := List.mem_singleton.1 hj
      subst this
      show j.id < db.nj + 1 ∧ j.arrayId < db.nj + 1
      omega
  · intro m hm
    show m.id < db.nm + req.length ∧ m.job < db.nj + 1
    rcases List.mem_append.1 hm with hm | hm
    · have := hv.molds m hm
      omega
    · obtain ⟨⟨k, x⟩, hx, rfl⟩ := List.mem_map.1 hm
      have := mem_number _ _ _ _ hx
      exact ⟨this.2.1, Nat.lt_succ_self _⟩
  · intro g hg
    show g.id < db.ng + (flat (blocksOf db.nm req)).length ∧ g.mold < db.nm + req.length
    rcases List.mem_append.1 hg with hg | hg
    · have := hv.groups g hg
      omega
    · obtain ⟨⟨k, y⟩, hx, rfl⟩ := List.mem_map.1 hg
      have h1 := mem_number _ _ _ _ hx
      obtain ⟨b, hb, hy⟩ := List.mem_flatMap.1 h1.2.2
      obtain ⟨g', _, rfl⟩ := List.mem_map.1 hy
      exact ⟨h1.2.1, (hblk b hb).2⟩
  · intro d hd
    show d.group < db.ng + (flat (blocksOf db.nm req)).length
    rcases List.mem_append.1 hd with hd | hd
    · have := hv.descs d hd
      omega
    · exact (descsFrom_group _ _ d hd).2
  · intro x hx
    have := hv.types x hx
    show x.1 < db.nj + 1
    omega
  · intro x hx
    have := hv.deps x hx
    show x.1 < db.nj + 1
    omega
  · intro x hx
    have := hv.logs x hx
    show x.1 < db.nj + 1
    omega
  · rw [requestOf_eq]
    show ((db.molds ++ (number db.nm req).map (fun x => (⟨x.1, db.nj, wall dw x.2.walltime⟩ : SMold))).filter (fun m => m.job = db.nj)).map
      (fun m => (m.walltime, groupsView (db.groups ++ groupsFrom db.ng (flat (blocksOf db.nm req))) (db.descs ++ descsFrom db.ng (flat (blocksOf db.nm req))) m.id)) = _
    rw [List.filter_append, filter_none db.molds _ (fun m hm => by have := (hv.molds m hm).2; simp only [decide_eq_false_iff_not]; omega),
      List.nil_append, filter_all _ _ (by
        intro m hm
        obtain ⟨x, _, rfl⟩ := List.mem_map.1 hm
        simp), List.map_map]
    unfold expected
    have : ∀ x ∈ number db.nm req, ((fun m : SMold => (m.walltime, groupsView (db.groups ++ groupsFrom db.ng (flat (blocksOf db.nm req)))
        (db.descs ++ descsFrom db.ng (flat (blocksOf db.nm req))) m.id)) ∘ fun x => (⟨x.1, db.nj, wall dw x.2.walltime⟩ : SMold)) x =
        (fun i : Inst => (wall dw i.walltime, i.groups.map (fun g => (g.prop, number 0 g.res)))) x.2 := by
      intro x hx
      simp only [Function.comp]
      have hb : (x.1, x.2.groups) ∈ blocksOf db.nm req := List.mem_map.2 ⟨x, hx, rfl⟩
      rw [blocks_view db.groups db.descs db.ng (blocksOf db.nm req) hnd (fun g hg b hb => by
        have := (hv.groups g hg).2
        have := (hblk b hb).1
        omega) hv.descs (x.1, x.2.groups) hb]
    rw [List.map_congr_left this]
    conv => rhs; rw [← number_snd db.nm req, List.map_map]
    rfl
  · intro jid hj
    rw [requestOf_eq, requestOf_eq]
    show ((db.molds ++ (number db.nm req).map (fun x => (⟨x.1, db.nj, wall dw x.2.walltime⟩ : SMold))).filter (fun m => m.job = jid)).map
      (fun m => (m.walltime, groupsView (db.groups ++ groupsFrom db.ng (flat (blocksOf db.nm req))) (db.descs ++ descsFrom db.ng (flat (blocksOf db.nm req))) m.id)) = _
    rw [List.filter_append, filter_none ((number db.nm req).map _), List.append_nil]
    · apply List.map_congr_left
      intro m hm
      have hm1 := (hv.molds m (List.mem_filter.1 hm).1).1
      rw [old_view db.groups db.descs db.ng (blocksOf db.nm req) m.id (fun b hb => by
        have := (hblk b hb).1
        omega) (fun g hg => (hv.groups g hg).1)]
    · intro m hm
      obtain ⟨x, _, rfl⟩ := List.mem_map.1 hm
      simp only [decide_eq_false_iff_not]; omega

/-- The row of a job. -/
def jobRow (p : Params) (resv : String) (id aid index : Nat) (cmd props : List Char) : SJob :=
  ⟨id, aid, index, cmd, stateOf p, resv, p.resv, props, p.queue⟩

def resvOf (p : Params) : String := if p.resv ≠ 0 then "toSchedule" else "None"

theorem addSubjob_spec (dw : Int) (est : List Char → Int) (date : Int) (db : DB) (hv : Valid db) (p : Params) (aid index : Nat)
    (cmd : List Char) (ha : aid < db.nj) (h0 : est p.props = 0) :
    ∃ db', addSubjob dw est date db p aid index cmd = (0, db.nj, { p with props := withAdmin p }, db') ∧ Valid db' ∧ db'.nj = db.nj + 1 ∧
      db'.jobs = db.jobs ++ [jobRow p (resvOf p) db.nj (if 0 < aid then aid else db.nj) index cmd (withAdmin p)] ∧
      RecordedAs dw date p db' db.nj ∧ ∀ jid < db.nj, SameJob db db' jid := by
  have e : addSubjob dw est date db p aid index cmd = (0, db.nj, { p with props := withAdmin p },
      { insRequest dw { db with nj := db.nj + 1, jobs := db.jobs ++ [jobRow p (resvOf p) db.nj (if 0 < aid then aid else db.nj) index cmd (withAdmin p)] } db.nj p.request with
        types := (insRequest dw { db with nj := db.nj + 1, jobs := db.jobs ++ [jobRow p (resvOf p) db.nj (if 0 < aid then aid else db.nj) index cmd (withAdmin p)] } db.nj p.request).types ++ p.types.map (fun t => (db.nj, t))
        deps := (insRequest dw { db with nj := db.nj + 1, jobs := db.jobs ++ [jobRow p (resvOf p) db.nj (if 0 < aid then aid else db.nj) index cmd (withAdmin p)] } db.nj p.request).deps ++ p.deps.map (fun d => (db.nj, d))
        logs := (insRequest dw { db with nj := db.nj + 1, jobs := db.jobs ++ [jobRow p (resvOf p) db.nj (if 0 < aid then aid else db.nj) index cmd (withAdmin p)] } db.nj p.request).logs ++ [(db.nj, stateOf p, date)] }) := by
    unfold addSubjob
    rw [if_neg (by simp [h0])]
    rfl
  rw [e]
  obtain ⟨h1, h2, h3, h4, h5, h6, h7, h8⟩ := insRequest_spec dw db hv
    (jobRow p (resvOf p) db.nj (if 0 < aid then aid else db.nj) index cmd (withAdmin p)) p.request
    ⟨Nat.le_refl _, by show (if 0 < aid then aid else db.nj) ≤ db.nj; split <;> omega⟩
  generalize insRequest dw { db with nj := db.nj + 1, jobs := db.jobs ++ [jobRow p (resvOf p) db.nj (if 0 < aid then aid else db.nj) index cmd (withAdmin p)] } db.nj p.request = db1 at h1 h2 h3 h4 h5 h6 h7 h8 e ⊢
  refine ⟨_, rfl, ?_, h2, h3, ?_, ?_⟩
  · refine ⟨h1.pos, h1.jobs, h1.molds, h1.groups, h1.descs, ?_, ?_, ?_⟩
    · intro x hx
      rcases List.mem_append.1 hx with hx | hx
      · exact h1.types x hx
      · obtain ⟨t, _, rfl⟩ := List.mem_map.1 hx
        show db.nj < db1.nj
        omega
    · intro x hx
      rcases List.mem_append.1 hx with hx | hx
      · exact h1.deps x hx
      · obtain ⟨t, _, rfl⟩ := List.mem_map.1 hx
        show db.nj < db1.nj
        omega
    · intro x hx
      rcases List.mem_append.1 hx with hx | hx
      · exact h1.logs x hx
      · have := List.mem_singleton.1 hx
        subst this
        show db.nj < db1.nj
        omega
  · refine ⟨h7, ?_, ?_, ?_⟩
    · have := assoc_new db.types p.types db.nj (fun x hx => by have := hv.types x hx; omega)
      rw [← h4] at this
      exact this
    · have := assoc_new db.deps p.deps db.nj (fun x hx => by have := hv.deps x hx; omega)
      rw [← h5] at this
      exact this
    · have := assoc_new db.logs [(stateOf p, date)] db.nj (fun x hx => by have := hv.logs x hx; omega)
      rw [← h6] at this
      exact this
  · intro jid hj
    refine ⟨h8 jid hj, ?_, ?_, ?_⟩
    · have := assoc_view db.types (p.types.map (fun t => (db.nj, t))) jid (by
        intro x hx
        obtain ⟨t, _, rfl⟩ := List.mem_map.1 hx
        show db.nj ≠ jid
        omega)
      show ((db1.types ++ _).filter _).map _ = _
      rw [h4]
      exact this
    · have := assoc_view db.deps (p.deps.map (fun t => (db.nj, t))) jid (by
        intro x hx
        obtain ⟨t, _, rfl⟩ := List.mem_map.1 hx
        show db.nj ≠ jid
        omega)
      show ((db1.deps ++ _).filter _).map _ = _
      rw [h5]
      exact this
    · have := assoc_view db.logs [(db.nj, stateOf p, date)] jid (by
        intro x hx
        have := List.mem_singleton.1 hx
        subst this
        show db.nj ≠ jid
        omega)
      show ((db1.logs ++ _).filter _).map _ = _
      rw [h6]
      exact this

/-! ## The loop -/

theorem number_shift {α : Type} (n m : Nat) (l : List α) : number (n + m) l = (number n l).map (fun x => (x.1 + m, x.2)) := by
  induction l generalizing n with
  | nil => rfl
  | cons a l ih =>
    simp only [number, List.map_cons]
    rw [show n + m + 1 = n + 1 + m by omega, ih]

theorem propsAt_succ (p : Params) (k : Nat) : propsAt { p with props := withAdmin p } k = propsAt p (k + 1) := by
  induction k with
  | zero => rfl
  | succ k ih =>
    show withAdmin { { p with props := withAdmin p } with props := propsAt { p with props := withAdmin p } k } = withAdmin { p with props := propsAt p (k + 1) }
    rw [ih]

theorem addLoop_pos (dw : Int) (est : List Char → Int) (date : Int) (cmds : List (List Char)) :
    ∀ (db : DB) (p : Params) (aid index : Nat) (ids : List Nat), Valid db → 0 < aid → aid < db.nj →
      (∀ k < cmds.length, est (propsAt p k) = 0) →
      ∃ db', addLoop dw est date db p aid index cmds ids = (0, ids ++ List.range' db.nj cmds.length, db') ∧ Valid db' ∧
        db'.nj = db.nj + cmds.length ∧
        db'.jobs = db.jobs ++ (number 0 cmds).map (fun x => jobRow p (resvOf p) (db.nj + x.1) aid (index + x.1) x.2 (propsAt p (x.1 + 1))) ∧
        (∀ k < cmds.length, RecordedAs dw date p db' (db.nj + k)) ∧ ∀ jid < db.nj, SameJob db db' jid := by
  induction cmds with
  | nil =>
    intro db p aid index ids hv _ _ _
    exact ⟨db, by simp [addLoop], hv, rfl, by simp [number], by simp, fun jid _ => ⟨rfl, rfl, rfl, rfl⟩⟩
  | cons c cs ih =>
    intro db p aid index ids hv hp ha hest
    obtain ⟨db1, e1, v1, n1, j1, r1, s1⟩ := addSubjob_spec dw est date db hv p aid index c ha (hest 0 (by simp))
    obtain ⟨db2, e2, v2, n2, j2, r2, s2⟩ := ih db1 { p with props := withAdmin p } aid (index + 1) (ids ++ [db.nj]) v1 hp (by omega) (by
      intro k hk
      rw [propsAt_succ]
      exact hest (k + 1) (by simp; omega))
    refine ⟨db2, ?_, v2, ?_, ?_, ?_, ?_⟩
    · unfold addLoop
      rw [e1]
      show addLoop dw est date db1 { p with props := withAdmin p } (if 0 < aid then aid else (ids ++ [db.nj]).headD 0) (index + 1) cs (ids ++ [db.nj]) = _
      rw [if_pos hp, e2, n1]
      simp [List.range'_succ]
    · rw [n2, n1, List.length_cons]; omega
    · rw [j2, j1, n1]
      simp only [number, List.map_cons, List.append_assoc, List.singleton_append]
      rw [show (0 + 1 : Nat) = 0 + 1 from rfl, number_shift 0 1 cs, List.map_map, if_pos hp]
      congr 2
      apply List.map_congr_left
      intro x _
      simp only [Function.comp, propsAt_succ]
      unfold jobRow resvOf stateOf
      dsimp only
      rw [show db.nj + 1 + x.1 = db.nj + (x.1 + 1) by omega, show index + 1 + x.1 = index + (x.1 + 1) by omega]
    · intro k hk
      cases k with
      | zero =>
        have h1 := s2 db.nj (by omega)
        obtain ⟨a1, a2, a3, a4⟩ := r1
        refine ⟨h1.1.trans a1, h1.2.1.trans a2, h1.2.2.1.trans a3, h1.2.2.2.trans a4⟩
      | succ k =>
        have := r2 k (by simp at hk; omega)
        rw [n1] at this
        rw [show db.nj + (k + 1) = db.nj + 1 + k by omega]
        exact this
    · intro jid hj
      have h1 := s1 jid hj
      have h2 := s2 jid (by omega)
      exact ⟨h2.1.trans h1.1, h2.2.1.trans h1.2.1, h2.2.2.1.trans h1.2.2.1, h2.2.2.2.trans h1.2.2.2⟩

theorem addLoop_spec (dw : Int) (est : List Char → Int) (date : Int) (cmds : List (List Char)) (db : DB) (p : Params) (hv : Valid db)
    (hest : ∀ k < cmds.length, est (propsAt p k) = 0) :
    ∃ db', addLoop dw est date db p 0 1 cmds [] = (0, List.range' db.nj cmds.length, db') ∧ Valid db' ∧
      db'.nj = db.nj + cmds.length ∧
      db'.jobs = db.jobs ++ (number 0 cmds).map (fun x => jobRow p (resvOf p) (db.nj + x.1) db.nj (1 + x.1) x.2 (propsAt p (x.1 + 1))) ∧
      (∀ k < cmds.length, RecordedAs dw date p db' (db.nj + k)) ∧ ∀ jid < db.nj, SameJob db db' jid := by
  cases cmds with
  | nil => exact ⟨db, by simp [addLoop], hv, rfl, by simp [number], by simp, fun jid _ => ⟨rfl, rfl, rfl, rfl⟩⟩
  | cons c cs =>
    obtain ⟨db1, e1, v1, n1, j1, r1, s1⟩ := addSubjob_spec dw est date db hv p 0 1 c hv.pos (hest 0 (by simp))
    obtain ⟨db2, e2, v2, n2, j2, r2, s2⟩ := addLoop_pos dw est date cs db1 { p with props := withAdmin p } db.nj 2 [db.nj] v1 hv.pos (by omega) (by
      intro k hk
      rw [propsAt_succ]
      exact hest (k + 1) (by simp; omega))
    refine ⟨db2, ?_, v2, ?_, ?_, ?_, ?_⟩
    · unfold addLoop
      rw [e1]
      show addLoop dw est date db1 { p with props := withAdmin p } db.nj 2 cs [db.nj] = _
      rw [e2, n1]
      simp [List.range'_succ]
    · rw [n2, n1, List.length_cons]; omega
    · rw [j2, j1, n1]
      simp only [number, List.map_cons, List.append_assoc, List.singleton_append]
      rw [show (0 + 1 : Nat) = 0 + 1 from rfl, number_shift 0 1 cs, List.map_map, if_neg (by omega)]
      congr 2
      apply List.map_congr_left
      intro x _
      simp only [Function.comp, propsAt_succ]
      unfold jobRow resvOf stateOf
      dsimp only
      rw [show db.nj + 1 + x.1 = db.nj + (x.1 + 1) by omega, show 2 + x.1 = 1 + (x.1 + 1) by omega]
    · intro k hk
      cases k with
      | zero =>
        have h1 := s2 db.nj (by omega)
        obtain ⟨a1, a2, a3, a4⟩ := r1
        refine ⟨h1.1.trans a1, h1.2.1.trans a2, h1.2.2.1.trans a3, h1.2.2.2.trans a4⟩
      | succ k =>
        have := r2 k (by simp at hk; omega)
        rw [n1] at this
        rw [show db.nj + (k + 1) = db.nj + 1 + k by omega]
        exact this
    · intro jid hj
      have h1 := s1 jid hj
      have h2 := s2 jid (by omega)
      exact ⟨h2.1.trans h1.1, h2.2.1.trans h1.2.1, h2.2.2.1.trans h1.2.2.1, h2.2.2.2.trans h1.2.2.2⟩

/-! ## Arrays -/

theorem flatMap_const_view {β : Type} (l : List (Nat × β)) (ids : List Nat) (hn : ids.Nodup) (m : List β) (k : Nat) (hk : k ∈ ids)
    (h : ∀ x ∈ l, x.1 ≠ k) : ((l ++ ids.flatMap (fun i => m.map (fun b => (i, b)))).filter (fun x => x.1 = k)).map (·.2) = m := by
  rw [List.filter_append, filter_none l _ (fun x hx => by simpa using h x hx), List.nil_append]
  clear h
  induction ids with
  | nil => cases hk
  | cons i ids ih =>
    rw [List.nodup_cons] at hn
    rw [List.flatMap_cons, List.filter_append, List.map_append]
    rcases List.mem_cons.1 hk with rfl | hk
    · rw [filter_all (m.map _) _ (by
        intro x hx
        obtain ⟨b, _, rfl⟩ := List.mem_map.1 hx
        simp), filter_none (ids.flatMap _)]
      · simp [Function.comp_def]
      · intro x hx
        obtain ⟨i, hi, hx⟩ := List.mem_flatMap.1 hx
        obtain ⟨b, _, rfl⟩ := List.mem_map.1 hx
        simp only [decide_eq_false_iff_not]
        rintro rfl
        exact hn.1 hi
    · rw [filter_none (m.map _), ih hn.2 hk]
      · rfl
      · intro x hx
        obtain ⟨b, _, rfl⟩ := List.mem_map.1 hx
        simp only [decide_eq_false_iff_not]
        rintro rfl
        exact hn.1 hk

theorem filter_contains_range (n len : Nat) (k : Nat) (h : k < n) : (List.range' n len).contains k = false := by
  simp only [List.contains_eq_mem, decide_eq_false_iff_not, List.mem_range'_1]
  omega

/-- The groups of an array: the same ones for each moldable. -/
def arrBlocks (nm n : Nat) (gs : List Grp) : List (Nat × List Grp) := (List.range' nm n).map (fun mid => (mid, gs))

theorem addArray_eq (dw : Int) (est : List Char → Int) (date : Int) (db : DB) (hv : Valid db) (p : Params) (cmds : List (List Char))
    (r : Inst) (hr : p.request = [r]) (h0 : est p.props = 0) :
    addArray dw est date db p cmds = some (0, List.range' db.nj cmds.length,
      { db with
        nj := db.nj + cmds.length
        nm := db.nm + cmds.length
        ng := db.ng + (flat (arrBlocks db.nm cmds.length r.groups)).length
        jobs := db.jobs ++ (number 0 cmds).map (fun x => (⟨db.nj + x.1, db.nj, 1 + x.1, x.2, stateOf p, "None", p.resv, withAdmin p, p.queue⟩ : SJob))
        molds := db.molds ++ (number db.nm (List.range' db.nj cmds.length)).map (fun x => (⟨x.1, x.2, wall dw r.walltime⟩ : SMold))
        groups := db.groups ++ groupsFrom db.ng (flat (arrBlocks db.nm cmds.length r.groups))
        descs := db.descs ++ descsFrom db.ng (flat (arrBlocks db.nm cmds.length r.groups))
        types := db.types ++ (List.range' db.nj cmds.length).flatMap (fun i => p.types.map (fun t => (i, t)))
        deps := db.deps ++ (List.range' db.nj cmds.length).flatMap (fun i => p.deps.map (fun d => (i, d)))
        logs := db.logs ++ (List.range' db.nj cmds.length).map (fun i => (i, stateOf p, date)) }) := by
  -- the identifiers of the jobs
  have hj1 : (number 0 cmds).map (fun x => db.nj + x.1) = List.range' db.nj cmds.length := by
    rw [← number_fst db.nj cmds]
    have := number_shift 0 db.nj cmds
    rw [Nat.zero_add] at this
    rw [this, List.map_map]
    apply List.map_congr_left
    intro x _
    simp [Nat.add_comm]
  have hjids : ((db.jobs ++ (number 0 cmds).map (fun x => (⟨db.nj + x.1, db.nj, 1 + x.1, x.2, stateOf p, "None", p.resv, withAdmin p, p.queue⟩ : SJob))).filter
      (fun j => j.arrayId = db.nj)).map (·.id) = List.range' db.nj cmds.length := by
    rw [List.filter_append, filter_none db.jobs _ (fun j h => by have := (hv.jobs j h).2; simp only [decide_eq_false_iff_not]; omega),
      List.nil_append, filter_all, List.map_map, ← hj1]
    · rfl
    · intro j h
      obtain ⟨x, _, rfl⟩ := List.mem_map.1 h
      simp
  have hlen : (List.range' db.nj cmds.length).length = cmds.length := List.length_range'
  -- the moldables
  have hmids : ((db.molds ++ (number db.nm (List.range' db.nj cmds.length)).map (fun x => (⟨x.1, x.2, wall dw r.walltime⟩ : SMold))).filter
      (fun m => (List.range' db.nj cmds.length).contains m.job)).map (·.id) = List.range' db.nm cmds.length := by
    rw [List.filter_append, filter_none db.molds _ (fun m h => filter_contains_range _ _ _ (hv.molds m h).2), List.nil_append, filter_all,
      List.map_map]
    · have := number_fst db.nm (List.range' db.nj cmds.length)
      rw [hlen] at this
      rw [← this]; rfl
    · intro m h
      obtain ⟨⟨k, y⟩, hx, rfl⟩ := List.mem_map.1 h
      simpa using (mem_number _ _ _ _ hx).2.2
  -- the groups
  let blocks : List (Nat × List Grp) := arrBlocks db.nm cmds.length r.groups
  have hbf : blocks.map (·.1) = List.range' db.nm cmds.length := by
    show ((List.range' db.nm cmds.length).map (fun mid => (mid, r.groups))).map (·.1) = _
    rw [List.map_map]
    conv => rhs; rw [← List.map_id (List.range' db.nm cmds.length)]
    rfl
  have hflat : flat blocks = (List.range' db.nm cmds.length).flatMap (fun mid => r.groups.map (fun g => (mid, g))) := by
    show (blocks).flatMap _ = _
    show ((List.range' db.nm cmds.length).map (fun mid => (mid, r.groups))).flatMap _ = _
    rw [List.flatMap_map]
  have hblk : ∀ b ∈ blocks, db.nm ≤ b.1 ∧ b.1 < db.nm + cmds.length := by
    intro b hb
    have : b.1 ∈ blocks.map (·.1) := List.mem_map.2 ⟨b, hb, rfl⟩
    rw [hbf, List.mem_range'_1] at this
    exact this
  have hnew : (List.range' db.nm cmds.length).flatMap (fun mid => r.groups.map (fun g => (mid, g.prop))) =
      (flat blocks).map (fun x => (x.1, x.2.prop)) := by
    rw [hflat, List.map_flatMap]
    simp [List.map_map, Function.comp_def]
  have hgrp : (number db.ng ((List.range' db.nm cmds.length).flatMap (fun mid => r.groups.map (fun g => (mid, g.prop))))).map
      (fun x => (⟨x.1, x.2.1, x.2.2⟩ : SGrp)) = groupsFrom db.ng (flat blocks) := by
    rw [hnew, number_map, List.map_map]; rfl
  have hgids : ((db.groups ++ groupsFrom db.ng (flat blocks)).filter (fun g => (List.range' db.nm cmds.length).contains g.mold)).map (·.id) =
      List.range' db.ng (flat blocks).length := by
    rw [List.filter_append, filter_none db.groups _ (fun g h => filter_contains_range _ _ _ (hv.groups g h).2), List.nil_append, filter_all]
    · unfold groupsFrom
      rw [List.map_map, ← number_fst]; rfl
    · intro g h
      obtain ⟨⟨k, y⟩, hx, rfl⟩ := List.mem_map.1 h
      have h1 := mem_number _ _ _ _ hx
      obtain ⟨b, hb, hy⟩ := List.mem_flatMap.1 h1.2.2
      obtain ⟨g', _, rfl⟩ := List.mem_map.1 hy
      have := hblk b hb
      simp only [List.contains_eq_mem, decide_eq_true_eq, List.mem_range'_1]
      exact this
  have hsnd : cmds.flatMap (fun _ => r.groups) = (flat blocks).map (·.2) := by
    rw [hflat, List.map_flatMap]
    have : ∀ (n : Nat) (l : List (List Char)), l.flatMap (fun _ => r.groups) = (List.range' n l.length).flatMap (fun mid => (r.groups.map (fun g => (mid, g))).map (·.2)) := by
      intro n l
      induction l generalizing n with
      | nil => rfl
      | cons c l ih =>
        rw [List.flatMap_cons, List.length_cons, List.range'_succ, List.flatMap_cons, ← ih]
        simp [Function.comp_def]
    exact this db.nm cmds
  have hdesc : ((List.range' db.ng (flat blocks).length).zip (cmds.flatMap (fun _ => r.groups))).flatMap (fun x => descRows x.1 x.2.res) =
      descsFrom db.ng (flat blocks) := by
    rw [hsnd]
    have h1 := range'_zip db.ng ((flat blocks).map (·.2))
    rw [List.length_map] at h1
    rw [h1, number_map, List.flatMap_map]; rfl
  show addArray dw est date db p cmds = some (0, List.range' db.nj cmds.length, { db with nj := _, nm := _, ng := db.ng + (flat blocks).length, jobs := _, molds := _, groups := db.groups ++ groupsFrom db.ng (flat blocks), descs := db.descs ++ descsFrom db.ng (flat blocks), types := _, deps := _, logs := _ })
  unfold addArray
  rw [hr]
  dsimp only
  rw [if_neg (by simp [h0])]
  rw [hjids, hmids, hlen, hgrp, hgids, hdesc, hnew]
  simp

theorem addArray_spec (dw : Int) (est : List Char → Int) (date : Int) (db : DB) (hv : Valid db) (p : Params) (cmds : List (List Char))
    (r : Inst) (hr : p.request = [r]) (h0 : est p.props = 0) :
    ∃ db', addArray dw est date db p cmds = some (0, List.range' db.nj cmds.length, db') ∧ Valid db' ∧
      db'.nj = db.nj + cmds.length ∧
      db'.jobs = db.jobs ++ (number 0 cmds).map (fun x => jobRow p "None" (db.nj + x.1) db.nj (1 + x.1) x.2 (withAdmin p)) ∧
      (∀ k < cmds.length, RecordedAs dw date p db' (db.nj + k)) ∧ ∀ jid < db.nj, SameJob db db' jid := by
  have hnd : (List.range' db.nj cmds.length).Nodup := List.nodup_range' _
  have hndm : (List.range' db.nm cmds.length).Nodup := List.nodup_range' _
  have hlen : (List.range' db.nj cmds.length).length = cmds.length := List.length_range'
  let blocks : List (Nat × List Grp) := arrBlocks db.nm cmds.length r.groups
  have hbf : blocks.map (·.1) = List.range' db.nm cmds.length := by
    show ((List.range' db.nm cmds.length).map (fun mid => (mid, r.groups))).map (·.1) = _
    rw [List.map_map]
    conv => rhs; rw [← List.map_id (List.range' db.nm cmds.length)]
    rfl
  have hblk : ∀ b ∈ blocks, db.nm ≤ b.1 ∧ b.1 < db.nm + cmds.length := by
    intro b hb
    have : b.1 ∈ blocks.map (·.1) := List.mem_map.2 ⟨b, hb, rfl⟩
    rw [hbf, List.mem_range'_1] at this
    exact this
  have hadd := addArray_eq dw est date db hv p cmds r hr h0
  refine ⟨_, hadd, ?_, rfl, rfl, ?_, ?_⟩
  · refine ⟨by have := hv.pos; show 0 < db.nj + cmds.length; omega, ?_, ?_, ?_, ?_, ?_, ?_, ?_⟩
    · intro j hj
      show j.id < db.nj + cmds.length ∧ j.arrayId < db.nj + cmds.length
      rcases List.mem_append.1 hj with hj | hj
      · have := hv.jobs j hj
        omega
      · obtain ⟨⟨k, x⟩, hx, rfl⟩ := List.mem_map.1 hj
        have := mem_number _ _ _ _ hx
        show db.nj + k < db.nj + cmds.length ∧ db.nj < db.nj + cmds.length
        omega
    · intro m hm
      show m.id < db.nm + cmds.length ∧ m.job < db.nj + cmds.length
      rcases List.mem_append.1 hm with hm | hm
      · have := hv.molds m hm
        omega
      · obtain ⟨⟨k, x⟩, hx, rfl⟩ := List.mem_map.1 hm
        have h1 := mem_number _ _ _ _ hx
        rw [hlen, List.mem_range'_1] at h1
        exact ⟨h1.2.1, h1.2.2.2⟩
    · intro g hg
      show g.id < db.ng + (flat blocks).length ∧ g.mold < db.nm + cmds.length
      rcases List.mem_append.1 hg with hg | hg
      · have := hv.groups g hg
        omega
      · obtain ⟨⟨k, y⟩, hx, rfl⟩ := List.mem_map.1 hg
        have h1 := mem_number _ _ _ _ hx
        obtain ⟨b, hb, hy⟩ := List.mem_flatMap.1 h1.2.2
        obtain ⟨g', _, rfl⟩ := List.mem_map.1 hy
        exact ⟨h1.2.1, (hblk b hb).2⟩
    · intro d hd
      show d.group < db.ng + (flat blocks).length
      rcases List.mem_append.1 hd with hd | hd
      · have := hv.descs d hd
        omega
      · exact (descsFrom_group _ _ d hd).2
    · intro x hx
      show x.1 < db.nj + cmds.length
      rcases List.mem_append.1 hx with hx | hx
      · have := hv.types x hx
        omega
      · obtain ⟨i, hi, hx⟩ := List.mem_flatMap.1 hx
        obtain ⟨t, _, rfl⟩ := List.mem_map.1 hx
        exact (List.mem_range'_1.1 hi).2
    · intro x hx
      show x.1 < db.nj + cmds.length
      rcases List.mem_append.1 hx with hx | hx
      · have := hv.deps x hx
        omega
      · obtain ⟨i, hi, hx⟩ := List.mem_flatMap.1 hx
        obtain ⟨t, _, rfl⟩ := List.mem_map.1 hx
        exact (List.mem_range'_1.1 hi).2
    · intro x hx
      show x.1 < db.nj + cmds.length
      rcases List.mem_append.1 hx with hx | hx
      · have := hv.logs x hx
        omega
      · obtain ⟨i, hi, rfl⟩ := List.mem_map.1 hx
        exact (List.mem_range'_1.1 hi).2
  · intro k hk
    have hmem : db.nj + k ∈ List.range' db.nj cmds.length := by rw [List.mem_range'_1]; omega
    refine ⟨?_, ?_, ?_, ?_⟩
    · rw [requestOf_eq]
      show ((db.molds ++ (number db.nm (List.range' db.nj cmds.length)).map (fun x => (⟨x.1, x.2, wall dw r.walltime⟩ : SMold))).filter (fun m => m.job = db.nj + k)).map
        (fun m => (m.walltime, groupsView (db.groups ++ groupsFrom db.ng (flat blocks)) (db.descs ++ descsFrom db.ng (flat blocks)) m.id)) = _
      rw [List.filter_append, filter_none db.molds _ (fun m hm => by have := (hv.molds m hm).2; simp only [decide_eq_false_iff_not]; omega), List.nil_append]
      have hfil : ∀ (n s len : Nat), k < len → ((number n (List.range' s len)).map (fun x => (⟨x.1, x.2, wall dw r.walltime⟩ : SMold))).filter (fun m => m.job = s + k) =
          [⟨n + k, s + k, wall dw r.walltime⟩] := by
        clear hk hmem
        induction k with
        | zero =>
          intro n s len hl
          obtain ⟨len, rfl⟩ : ∃ m, len = m + 1 := ⟨len - 1, by omega⟩
          rw [List.range'_succ]
          simp only [number, List.map_cons]
          rw [List.filter_cons_of_pos (by simp), filter_none]
          · rfl
          · intro m hm
            obtain ⟨⟨q, y⟩, hx, rfl⟩ := List.mem_map.1 hm
            have := (mem_number _ _ _ _ hx).2.2
            rw [List.mem_range'_1] at this
            simp only [decide_eq_false_iff_not]
            omega
        | succ k ih =>
          intro n s len hl
          obtain ⟨len, rfl⟩ : ∃ m, len = m + 1 := ⟨len - 1, by omega⟩
          rw [List.range'_succ]
          simp only [number, List.map_cons]
          rw [List.filter_cons_of_neg (by simp)]
          have := ih (n + 1) (s + 1) len (by omega)
          rw [show s + (k + 1) = s + 1 + k by omega, show n + (k + 1) = n + 1 + k by omega]
          exact this
      rw [hfil db.nm db.nj cmds.length hk]
      unfold expected
      rw [hr]
      simp only [List.map_cons, List.map_nil]
      have hb : (db.nm + k, r.groups) ∈ blocks := List.mem_map.2 ⟨db.nm + k, by rw [List.mem_range'_1]; omega, rfl⟩
      rw [blocks_view db.groups db.descs db.ng blocks (by rw [hbf]; exact hndm) (fun g hg b hb => by
        have := (hv.groups g hg).2
        have := (hblk b hb).1
        omega) hv.descs (db.nm + k, r.groups) hb]
    · exact flatMap_const_view db.types _ hnd p.types _ hmem (fun x hx => by have := hv.types x hx; omega)
    · exact flatMap_const_view db.deps _ hnd p.deps _ hmem (fun x hx => by have := hv.deps x hx; omega)
    · have := flatMap_const_view db.logs _ hnd [(stateOf p, date)] _ hmem (fun x hx => by have := hv.logs x hx; omega)
      have hfm : (List.range' db.nj cmds.length).flatMap (fun i => [(stateOf p, date)].map (fun b => (i, b))) =
          (List.range' db.nj cmds.length).map (fun i => (i, stateOf p, date)) := by
        rw [List.map_eq_flatMap]; rfl
      rw [hfm] at this
      exact this
  · intro jid hj
    have hne : ∀ i ∈ List.range' db.nj cmds.length, i ≠ jid := by
      intro i hi
      rw [List.mem_range'_1] at hi
      omega
    refine ⟨?_, ?_, ?_, ?_⟩
    · rw [requestOf_eq, requestOf_eq]
      show ((db.molds ++ (number db.nm (List.range' db.nj cmds.length)).map (fun x => (⟨x.1, x.2, wall dw r.walltime⟩ : SMold))).filter (fun m => m.job = jid)).map
        (fun m => (m.walltime, groupsView (db.groups ++ groupsFrom db.ng (flat blocks)) (db.descs ++ descsFrom db.ng (flat blocks)) m.id)) = _
      rw [List.filter_append, filter_none (List.map _ _), List.append_nil]
      · apply List.map_congr_left
        intro m hm
        have hm1 := (hv.molds m (List.mem_filter.1 hm).1).1
        rw [old_view db.groups db.descs db.ng blocks m.id (fun b hb => by
          have := (hblk b hb).1
          omega) (fun g hg => (hv.groups g hg).1)]
      · intro m hm
        obtain ⟨⟨q, y⟩, hx, rfl⟩ := List.mem_map.1 hm
        have := (mem_number _ _ _ _ hx).2.2
        simpa using hne y this
    · refine assoc_view db.types _ jid ?_
      intro x hx
      obtain ⟨i, hi, hx⟩ := List.mem_flatMap.1 hx
      obtain ⟨t, _, rfl⟩ := List.mem_map.1 hx
      exact hne i hi
    · refine assoc_view db.deps _ jid ?_
      intro x hx
      obtain ⟨i, hi, hx⟩ := List.mem_flatMap.1 hx
      obtain ⟨t, _, rfl⟩ := List.mem_map.1 hx
      exact hne i hi
    · refine assoc_view db.logs _ jid ?_
      intro x hx
      obtain ⟨i, hi, rfl⟩ := List.mem_map.1 hx
      exact hne i hi

/-! ## C39: submissions -/

/-- The parameters `p` are accepted: the admission rules turned them (once `no_quotas` is removed) into `p3`, whose
queue exists; jobs of the queue `admin` are exempt from quotas. -/
def Admitted (quotas : Bool) (queues : List String) (rules : Params → Option Params) (p p3 : Params) : Prop :=
  ∃ p2, rules (if quotas then { p with types := p.types.erase (txt "no_quotas") } else p) = some p2 ∧ p2.queue ∈ queues ∧
    p3 = if quotas ∧ p2.queue = "admin" then { p2 with types := p2.types ++ [txt "no_quotas"] } else p2

/-- The number of jobs asked: the number of lines of parameters, or else the size of the array. -/
def asked (p : Params) : Nat := if p.params = [] then p.arrayNb.toNat else p.params.length

/-- The estimation of the resources succeeds for each job, and a simple array asks for one alternative. -/
def Feasible (est : List Char → Int) (p : Params) : Prop :=
  if 1 < asked p ∧ p.useKey = false then est p.props = 0 ∧ ∃ r, p.request = [r] else ∀ k < asked p, est (propsAt p k) = 0

theorem commands_length (p : Params) : (commands p).length = asked p := by
  unfold commands asked
  by_cases h : p.params = []
  · rw [if_neg (by simp [h]), if_pos h, List.length_replicate]
  · rw [if_pos h, if_neg h, List.length_map]

theorem submit_admitted (quotas : Bool) (queues : List String) (rules : Params → Option Params) (dw : Int) (est : List Char → Int) (date : Int)
    (db : DB) (p p3 : Params) (h : Admitted quotas queues rules p p3) :
    submit quotas queues rules dw est date db p =
      if 1 < asked p3 ∧ p3.useKey = false then (addArray dw est date db p3 (commands p3)).map (fun x => (0, x.2.1, x.2.2))
      else some (addLoop dw est date db p3 0 1 (commands p3) []) := by
  obtain ⟨p2, h1, h2, h3⟩ := h
  unfold submit
  dsimp only
  rw [h1]
  dsimp only
  rw [if_neg (by simpa using h2), ← h3, commands_length]

theorem rows_facts (p : Params) (resv : Nat → String) (n : Nat) (props : Nat → List Char) (cmds : List (List Char)) :
    let rows := (number 0 cmds).map (fun x => jobRow p (resv x.1) (n + x.1) n (1 + x.1) x.2 (props x.1))
    rows.map (·.id) = List.range' n cmds.length ∧ rows.map (·.index) = List.range' 1 cmds.length ∧ rows.map (·.command) = cmds ∧
      ∀ r ∈ rows, r.arrayId = n ∧ r.queue = p.queue ∧ r.start = p.resv ∧ r.state = stateOf p := by
  have hs : ∀ m : Nat, (number 0 cmds).map (fun x => m + x.1) = List.range' m cmds.length := by
    intro m
    rw [← number_fst m cmds]
    have := number_shift 0 m cmds
    rw [Nat.zero_add] at this
    rw [this, List.map_map]
    apply List.map_congr_left
    intro x _
    simp [Nat.add_comm]
  refine ⟨?_, ?_, ?_, ?_⟩
  · rw [List.map_map, ← hs n]; rfl
  · rw [List.map_map, ← hs 1]; rfl
  · rw [List.map_map]
    conv => rhs; rw [← number_snd 0 cmds]
    rfl
  · intro r hr
    obtain ⟨x, _, rfl⟩ := List.mem_map.1 hr
    exact ⟨rfl, rfl, rfl, rfl⟩

/-- C39: an accepted submission of `n` jobs creates `n` jobs and returns their identifiers, in order, from the next
one; they share the first one as array identifier and have the indices 1..n; their commands are the command, followed
by a space and their line of parameters, if any; the request (walltime by default, groups, levels), the types, the
dependencies and the first state recorded for each one are those asked, and other jobs are unchanged. A single job
also has its reservation recorded. -/
theorem submit_creates (quotas : Bool) (queues : List String) (rules : Params → Option Params) (dw : Int) (est : List Char → Int) (date : Int)
    (db : DB) (hv : Valid db) (p p3 : Params) (ha : Admitted quotas queues rules p p3) (hf : Feasible est p3) :
    ∃ db' rows, submit quotas queues rules dw est date db p = some (0, List.range' db.nj (asked p3), db') ∧ Valid db' ∧
      db'.nj = db.nj + asked p3 ∧ db'.jobs = db.jobs ++ rows ∧
      rows.map (·.id) = List.range' db.nj (asked p3) ∧ rows.map (·.index) = List.range' 1 (asked p3) ∧
      rows.map (·.command) = (if p3.params = [] then List.replicate (asked p3) p3.command else p3.params.map (fun a => p3.command ++ ' ' :: a)) ∧
      (∀ r ∈ rows, r.arrayId = db.nj ∧ r.queue = p3.queue ∧ r.start = p3.resv ∧ r.state = (if p3.hold then "Hold" else "Waiting")) ∧
      (∀ r ∈ rows, asked p3 = 1 → r.reservation = (if p3.resv = 0 then "None" else "toSchedule") ∧ r.props = withAdmin p3) ∧
      (∀ k < asked p3, RecordedAs dw date p3 db' (db.nj + k)) ∧ ∀ jid < db.nj, SameJob db db' jid := by
  have hc : commands p3 = (if p3.params = [] then List.replicate (asked p3) p3.command else p3.params.map (fun a => p3.command ++ ' ' :: a)) := by
    unfold commands asked
    by_cases h : p3.params = []
    · rw [if_neg (by simp [h]), if_pos h, if_pos h]
    · rw [if_pos h, if_neg h]
  rw [submit_admitted _ _ _ _ _ _ _ _ _ ha]
  by_cases hcase : 1 < asked p3 ∧ p3.useKey = false
  · rw [if_pos hcase]
    unfold Feasible at hf
    rw [if_pos hcase] at hf
    obtain ⟨h0, r, hr⟩ := hf
    obtain ⟨db', e, v, n, j, rec, same⟩ := addArray_spec dw est date db hv p3 (commands p3) r hr h0
    rw [commands_length] at e n rec
    have hrows := rows_facts p3 (fun _ => "None") db.nj (fun _ => withAdmin p3) (commands p3)
    rw [commands_length] at hrows
    refine ⟨db', _, by rw [e]; rfl, v, n, j, hrows.1, hrows.2.1, hrows.2.2.1.trans hc, hrows.2.2.2, ?_, rec, same⟩
    intro r _ h1
    omega
  · rw [if_neg hcase]
    unfold Feasible at hf
    rw [if_neg hcase, ← commands_length] at hf
    obtain ⟨db', e, v, n, j, rec, same⟩ := addLoop_spec dw est date (commands p3) db p3 hv hf
    rw [commands_length] at e n rec
    have hrows := rows_facts p3 (fun _ => resvOf p3) db.nj (fun k => propsAt p3 (k + 1)) (commands p3)
    rw [commands_length] at hrows
    refine ⟨db', _, by rw [e], v, n, j, hrows.1, hrows.2.1, hrows.2.2.1.trans hc, hrows.2.2.2, ?_, rec, same⟩
    intro r hr h1
    obtain ⟨⟨k, x⟩, hx, rfl⟩ := List.mem_map.1 hr
    have := mem_number _ _ _ _ hx
    rw [commands_length] at this
    have hk : k = 0 := by omega
    subst hk
    refine ⟨?_, rfl⟩
    show resvOf p3 = _
    unfold resvOf
    by_cases h : p3.resv = 0
    · rw [if_neg (by simp [h]), if_pos h]
    · rw [if_pos h, if_neg h]

/-- C39: the lines of parameters of a file are its lines, in order, without the comments and the blank lines. -/
theorem paramLines_spec (lines : List (List Char)) : (paramLines lines).Sublist lines ∧
    ∀ l, l ∈ paramLines lines ↔ l ∈ lines ∧ l.head? ≠ some '#' ∧ ∃ c ∈ l, c.isWhitespace = false := by
  refine ⟨List.filter_sublist, fun l => ?_⟩
  unfold paramLines
  rw [List.mem_filter]
  simp

/-- C39: the walltime recorded is the one asked, or the default one when it is absent or zero. -/
theorem wall_spec (dw : Int) : wall dw none = dw ∧ wall dw (some 0) = dw ∧ ∀ t : Int, t ≠ 0 → wall dw (some t) = t := by
  refine ⟨rfl, rfl, fun t h => ?_⟩
  unfold wall
  exact if_neg h

/-- C39: the properties recorded for a single job are the user's ones and the administrator's ones. -/
theorem withAdmin_spec (p : Params) : (p.admin = none → withAdmin p = p.props) ∧
    ∀ a, p.admin = some a → (p.props = [] → withAdmin p = a) ∧ (p.props ≠ [] → withAdmin p = txt "(" ++ p.props ++ txt ") AND " ++ a) := by
  refine ⟨fun h => ?_, fun a h => ⟨fun h1 => ?_, fun h1 => ?_⟩⟩
  · unfold withAdmin; rw [h]
  · unfold withAdmin; rw [h]; exact if_neg (by simp [h1])
  · unfold withAdmin; rw [h]
    dsimp only
    rw [if_pos h1]
    simp [txt]

/-! ### Errors -/

theorem addSubjob_error (dw : Int) (est : List Char → Int) (date : Int) (db : DB) (p : Params) (aid index : Nat) (cmd : List Char)
    (h : est p.props ≠ 0) : addSubjob dw est date db p aid index cmd = (est p.props, 0, p, db) := if_pos h

theorem addLoop_error (dw : Int) (est : List Char → Int) (date : Int) (db : DB) (p : Params) (aid index : Nat) (c : List Char) (cs : List (List Char))
    (ids : List Nat) (h : est p.props ≠ 0) : addLoop dw est date db p aid index (c :: cs) ids = (est p.props, ids, db) := by
  unfold addLoop
  rw [addSubjob_error _ _ _ _ _ _ _ _ h]
  split
  · rename_i h'
    simp only [Prod.mk.injEq] at h'
    exact absurd h'.1 h
  · rename_i h'
    simp only [Prod.mk.injEq] at h'
    rw [h'.1, h'.2.2.2]

/-- C39: a submission which reports an error leaves the tables unchanged and no identifier, except for an array with
job keys. -/
theorem submit_error_partial (quotas : Bool) (queues : List String) (rules : Params → Option Params) (dw : Int) (est : List Char → Int) (date : Int)
    (db db' : DB) (p : Params) (e : Int) (ids : List Nat) (h : submit quotas queues rules dw est date db p = some (e, ids, db')) (he : e ≠ 0)
    (hk : ∀ p3, Admitted quotas queues rules p p3 → asked p3 ≤ 1 ∨ p3.useKey = false) : ids = [] ∧ db' = db := by
  by_cases hr : ∃ p3, Admitted quotas queues rules p p3
  · obtain ⟨p3, ha⟩ := hr
    rw [submit_admitted _ _ _ _ _ _ _ _ _ ha] at h
    by_cases hcase : 1 < asked p3 ∧ p3.useKey = false
    · rw [if_pos hcase] at h
      obtain ⟨x, _, hx⟩ := Option.map_eq_some_iff.1 h
      simp only [Prod.mk.injEq] at hx
      exact absurd hx.1.symm he
    · rw [if_neg hcase] at h
      have h1 : asked p3 ≤ 1 := by
        rcases hk p3 ha with h | h
        · exact h
        · by_cases h1 : 1 < asked p3
          · exact absurd ⟨h1, h⟩ hcase
          · omega
      rw [← commands_length] at h1
      have h := Option.some.inj h
      cases hc : commands p3 with
      | nil =>
        rw [hc] at h
        simp only [addLoop, Prod.mk.injEq] at h
        exact absurd h.1.symm he
      | cons c cs =>
        rw [hc] at h h1
        have hcs : cs = [] := by
          cases cs with
          | nil => rfl
          | cons _ _ => simp at h1
        subst hcs
        by_cases h0 : est p3.props = 0
        · have : addSubjob dw est date db p3 0 1 c = (0, (addSubjob dw est date db p3 0 1 c).2.1, (addSubjob dw est date db p3 0 1 c).2.2.1, (addSubjob dw est date db p3 0 1 c).2.2.2) := by
            unfold addSubjob
            rw [if_neg (by simp [h0])]
          unfold addLoop at h
          rw [this] at h
          have h : ((0 : Int), [] ++ [(addSubjob dw est date db p3 0 1 c).2.1], (addSubjob dw est date db p3 0 1 c).2.2.2) = (e, ids, db') := h
          simp only [Prod.mk.injEq] at h
          exact absurd h.1.symm he
        · rw [addLoop_error _ _ _ _ _ _ _ _ _ _ h0] at h
          simp only [Prod.mk.injEq] at h
          exact ⟨h.2.1.symm, h.2.2.symm⟩
  · unfold submit at h
    dsimp only at h
    cases h1 : rules (if quotas then { p with types := p.types.erase (txt "no_quotas") } else p) with
    | none =>
      rw [h1] at h
      have h := Option.some.inj h
      simp only [Prod.mk.injEq] at h
      exact ⟨h.2.1.symm, h.2.2.symm⟩
    | some p2 =>
      rw [h1] at h
      dsimp only at h
      by_cases h2 : p2.queue ∈ queues
      · exact absurd ⟨_, p2, h1, h2, rfl⟩ hr
      · rw [if_pos h2] at h
        have h := Option.some.inj h
        simp only [Prod.mk.injEq] at h
        exact ⟨h.2.1.symm, h.2.2.symm⟩

/-! ### Examples and violations -/

/-- A user's parameters: two alternatives, the first one with two groups. -/
def exParams : Params :=
  ⟨txt "run", [], 1, false, [txt "besteffort"], "default", false, 0, [3], [], none,
    [⟨[⟨txt "mem>1", [(txt "host", .num (txt "2"))]⟩, ⟨[], [(txt "cpu", .all)]⟩], some 60⟩, ⟨[⟨[], [(txt "host", .num (txt "1"))]⟩], none⟩]⟩

def exDB : DB := ⟨10, 20, 30, [⟨4, 4, 1, txt "old", "Running", "None", 0, [], "default"⟩], [⟨7, 4, 3600⟩], [⟨8, 7, []⟩],
  [⟨8, txt "host", .num (txt "1"), 0⟩], [(4, txt "x")], [], [(4, "Waiting", 5)]⟩

theorem exDB_valid : Valid exDB := by
  constructor <;> decide

/-- C39, not vacuous: a moldable job, and an array of two jobs from parameters. -/
example : Admitted true ["default"] some exParams exParams ∧ Feasible (fun _ => 0) exParams ∧ asked exParams = 1 := by
  refine ⟨⟨exParams, by decide, by decide, by decide⟩, ?_, by decide⟩
  unfold Feasible
  rw [if_neg (by decide)]
  intros; rfl

def exArray : Params := { exParams with params := [txt "a", txt "b c"], request := [⟨[⟨[], [(txt "host", .num (txt "2"))]⟩], some 60⟩] }

example : Admitted true ["default"] some exArray exArray ∧ Feasible (fun _ => 0) exArray ∧ asked exArray = 2 := by
  refine ⟨⟨exArray, by decide, by decide, by decide⟩, ?_, by decide⟩
  unfold Feasible
  rw [if_pos (by decide)]
  exact ⟨rfl, _, rfl⟩

/-- C39 (violated): an array of moldable jobs is reported as a success although no job was created. -/
theorem array_moldable_violated :
    submit true ["default"] some 3600 (fun _ => 0) 5 exDB { exParams with arrayNb := 2 } = some (0, [], exDB) := by decide

/-- C39 (violated): a size of array below 1 is accepted and no job is created. -/
theorem array_size_violated : submit true ["default"] some 3600 (fun _ => 0) 5 exDB { exParams with arrayNb := -3 } = some (0, [], exDB) := by decide

/-- C39 (violated): an array of reservations is recorded with their start time but without being reservations. -/
theorem array_reservation_violated : ∃ db', submit true ["default"] some 3600 (fun _ => 0) 5 exDB { exArray with resv := 900 } = some (0, [10, 11], db') ∧
    (db'.jobs.filter (fun j => j.arrayId = 10)).map (fun j => (j.reservation, j.start)) = [("None", 900), ("None", 900)] := ⟨_, rfl, by decide⟩

/-- C39 (violated): when no resource fits, an array raises an exception instead of reporting the error. -/
theorem array_raises_violated : submit true ["default"] some 3600 (fun _ => -5) 5 exDB exArray = none := by decide

/-- C39 (violated): an array with job keys whose administrator's properties exclude the resources reports an error but
its first job is created. -/
theorem array_atomic_violated : ∃ db', submit true ["default"] some 3600 (fun q => if q = [] then 0 else -5) 5 exDB
    { exArray with useKey := true, admin := some (txt "x=1") } = some (-5, [10], db') ∧ db'.jobs.length = 2 := ⟨_, rfl, by decide⟩

/-- C39 (violated): through the API, the comments and the end of the last line of a file of parameters make jobs. -/
theorem api_params_violated : apiParams ("#x\na\n".toList) = [['#', 'x'], ['a'], []] ∧
    paramLines (split '\n' ("#x\na\n".toList)) = [['a']] := by decide

/-! ## C38: quotas -/

open Oar.JobTypes in
theorem addType_noQuotas (i i' : Info) (t : List Char) (h : addType i t = some i') :
    i'.noQuotas = (i.noQuotas || decide ((split '=' t).headD [] = txt "no_quotas")) := by
  unfold addType at h
  dsimp only at h
  generalize split '=' t = tv at h ⊢
  have ne : ∀ a b : List Char, tv.headD [] = a → a ≠ b → decide (tv.headD [] = b) = false := by
    intro a b h1 h2
    rw [h1]
    simpa using h2
  by_cases c1 : tv.headD [] = txt "timesharing"
  · rw [if_pos c1] at h
    rw [ne _ _ c1 (by decide), Bool.or_false]
    split at h
    · split at h
      · cases h; rfl
      · cases h
    · cases h
  rw [if_neg c1] at h
  by_cases c2 : tv.headD [] = txt "placeholder"
  · rw [if_pos c2] at h
    rw [ne _ _ c2 (by decide), Bool.or_false]
    split at h
    · cases h; rfl
    · cases h
  rw [if_neg c2] at h
  by_cases c3 : tv.headD [] = txt "allow"
  · rw [if_pos c3] at h
    rw [ne _ _ c3 (by decide), Bool.or_false]
    split at h
    · cases h; rfl
    · cases h
  rw [if_neg c3] at h
  by_cases c4 : tv.headD [] = txt "assign"
  · rw [if_pos c4] at h
    rw [ne _ _ c4 (by decide), Bool.or_false]
    cases h; rfl
  rw [if_neg c4] at h
  by_cases c5 : tv.headD [] = txt "find"
  · rw [if_pos c5] at h
    rw [ne _ _ c5 (by decide), Bool.or_false]
    cases h; rfl
  rw [if_neg c5] at h
  by_cases c6 : tv.headD [] = txt "no_quotas"
  · rw [if_pos c6] at h
    rw [decide_eq_true c6, Bool.or_true]
    cases h; rfl
  rw [if_neg c6] at h
  rw [decide_eq_false c6, Bool.or_false]
  split at h
  · cases h; rfl
  · cases h; rfl

open Oar.JobTypes in
theorem jobTypes_noQuotas (ts : List (List Char)) (i i' : Info) (h : jobTypes ts i = some i') :
    i'.noQuotas = true ↔ i.noQuotas = true ∨ ∃ t ∈ ts, (split '=' t).headD [] = txt "no_quotas" := by
  induction ts generalizing i with
  | nil => simp [jobTypes] at h; subst h; simp
  | cons t ts ih =>
    obtain ⟨i1, h1, h2⟩ := Option.bind_eq_some_iff.1 h
    rw [ih i1 h2, addType_noQuotas i i1 t h1]
    simp only [Bool.or_eq_true, decide_eq_true_eq, List.mem_cons, exists_eq_or_imp]
    exact or_assoc

theorem addLoop_success (dw : Int) (est : List Char → Int) (date : Int) (cmds : List (List Char)) :
    ∀ (db : DB) (p : Params) (aid index : Nat) (ids : List Nat), (addLoop dw est date db p aid index cmds ids).1 = 0 →
      ∀ k < cmds.length, est (propsAt p k) = 0 := by
  induction cmds with
  | nil => intro db p aid index ids _ k hk; simp at hk
  | cons c cs ih =>
    intro db p aid index ids h k hk
    by_cases h0 : est p.props = 0
    · cases k with
      | zero => exact h0
      | succ k =>
        have : addSubjob dw est date db p aid index c = (0, db.nj, { p with props := withAdmin p }, (addSubjob dw est date db p aid index c).2.2.2) := by
          unfold addSubjob
          rw [if_neg (by simp [h0])]
        unfold addLoop at h
        rw [this] at h
        have := ih _ _ _ _ _ h k (by simpa using hk)
        rw [propsAt_succ] at this
        exact this
    · rw [addLoop_error _ _ _ _ _ _ _ _ _ _ h0] at h
      exact absurd h h0

/-- A successful submission which returns a job is a feasible one. -/
theorem submit_feasible (quotas : Bool) (queues : List String) (rules : Params → Option Params) (dw : Int) (est : List Char → Int) (date : Int)
    (db db' : DB) (p p3 : Params) (ha : Admitted quotas queues rules p p3) (ids : List Nat)
    (h : submit quotas queues rules dw est date db p = some (0, ids, db')) (hne : ids ≠ []) : Feasible est p3 := by
  rw [submit_admitted _ _ _ _ _ _ _ _ _ ha] at h
  unfold Feasible
  by_cases hcase : 1 < asked p3 ∧ p3.useKey = false
  · rw [if_pos hcase] at h ⊢
    obtain ⟨x, hx, hx2⟩ := Option.map_eq_some_iff.1 h
    unfold addArray at hx
    split at hx
    · rename_i r hr
      by_cases h0 : est p3.props = 0
      · exact ⟨h0, r, hr⟩
      · rw [if_pos h0] at hx; cases hx
    · have := Option.some.inj hx
      subst this
      simp only [Prod.mk.injEq] at hx2
      exact absurd hx2.2.1.symm hne
  · rw [if_neg hcase] at h ⊢
    have h := Option.some.inj h
    rw [← commands_length]
    exact addLoop_success dw est date _ db p3 0 1 [] (by rw [h])

open Oar.JobTypes in
/-- C38, exactly: with quotas, when the admission rules leave the types alone, a submitted job is exempt from quotas
just when it goes to the queue `admin` or the user passed a type `no_quotas`, with or without a value, besides one
removed literal. -/
theorem exempt_iff (queues : List String) (rules : Params → Option Params) (dw : Int) (est : List Char → Int) (date : Int)
    (db db' : DB) (hv : Valid db) (p p2 : Params) (hr : rules { p with types := p.types.erase (txt "no_quotas") } = some p2)
    (ht : p2.types = p.types.erase (txt "no_quotas")) (ids : List Nat)
    (h : submit true queues rules dw est date db p = some (0, ids, db')) (jid : Nat) (hj : jid ∈ ids) (i : Info)
    (hi : jobTypes (typesOf db' jid) Info.empty = some i) :
    i.noQuotas = true ↔ p2.queue = "admin" ∨ ∃ t ∈ p.types.erase (txt "no_quotas"), (split '=' t).headD [] = txt "no_quotas" := by
  have hq : p2.queue ∈ queues := by
    refine Decidable.byContradiction fun hq => ?_
    unfold submit at h
    simp only [if_true] at h
    rw [hr] at h
    dsimp only at h
    rw [if_pos hq] at h
    have := Option.some.inj h
    simp only [Prod.mk.injEq] at this
    exact absurd this.1 (by decide)
  have ha : Admitted true queues rules p (if p2.queue = "admin" then { p2 with types := p2.types ++ [txt "no_quotas"] } else p2) :=
    ⟨p2, hr, hq, by simp⟩
  have hf := submit_feasible true queues rules dw est date db db' p _ ha ids h (List.ne_nil_of_mem hj)
  obtain ⟨db1, _, e, _, _, _, _, _, _, _, _, rec, _⟩ := submit_creates true queues rules dw est date db hv p _ ha hf
  rw [h] at e
  have e := Option.some.inj e
  simp only [Prod.mk.injEq] at e
  rw [e.2.1, List.mem_range'_1] at hj
  have := (rec (jid - db.nj) (by omega)).2.1
  rw [← e.2.2, show db.nj + (jid - db.nj) = jid by omega] at this
  rw [jobTypes_noQuotas _ _ _ hi, this]
  by_cases hadm : p2.queue = "admin"
  · rw [if_pos hadm]
    constructor
    · intro _; exact Or.inl hadm
    · intro _
      right
      exact ⟨txt "no_quotas", by simp, by decide⟩
  · rw [if_neg hadm, ht]
    simp [hadm, Info.empty]

open Oar.JobTypes in
/-- C38: a user who passes at most once the literal `no_quotas`, and no `no_quotas=x`, is subject to quotas (outside
the queue `admin`). -/
theorem not_exempt_partial (queues : List String) (rules : Params → Option Params) (dw : Int) (est : List Char → Int) (date : Int)
    (db db' : DB) (hv : Valid db) (p p2 : Params) (hr : rules { p with types := p.types.erase (txt "no_quotas") } = some p2)
    (ht : p2.types = p.types.erase (txt "no_quotas")) (hq : p2.queue ≠ "admin") (hone : p.types.count (txt "no_quotas") ≤ 1)
    (hval : ∀ t ∈ p.types, (split '=' t).headD [] = txt "no_quotas" → t = txt "no_quotas") (ids : List Nat)
    (h : submit true queues rules dw est date db p = some (0, ids, db')) (jid : Nat) (hj : jid ∈ ids) (i : Info)
    (hi : jobTypes (typesOf db' jid) Info.empty = some i) : i.noQuotas = false := by
  rw [← Bool.not_eq_true, exempt_iff queues rules dw est date db db' hv p p2 hr ht ids h jid hj i hi]
  rintro (h | ⟨t, ht, h⟩)
  · exact hq h
  · have := hval t (List.mem_of_mem_erase ht) h
    subst this
    have h1 := List.count_pos_iff.2 ht
    rw [List.count_erase_self] at h1
    omega

open Oar.JobTypes in
/-- C38 (violated): passing `no_quotas` twice, or with a value, exempts a user's job from quotas. -/
theorem exempt_violated :
    (∃ db' i, submit true ["default"] some 3600 (fun _ => 0) 5 exDB { exParams with types := [txt "no_quotas", txt "no_quotas"] } = some (0, [10], db') ∧
      jobTypes (typesOf db' 10) Info.empty = some i ∧ i.noQuotas = true) ∧
    ∃ db' i, submit true ["default"] some 3600 (fun _ => 0) 5 exDB { exParams with types := [txt "no_quotas=1"] } = some (0, [10], db') ∧
      jobTypes (typesOf db' 10) Info.empty = some i ∧ i.noQuotas = true :=
  ⟨⟨_, _, rfl, rfl, rfl⟩, ⟨_, _, rfl, rfl, rfl⟩⟩

open Oar.JobTypes in
/-- C38, not vacuous: the literal passed once is removed. -/
example : ∃ db' i, submit true ["default"] some 3600 (fun _ => 0) 5 exDB { exParams with types := [txt "no_quotas", txt "besteffort"] } = some (0, [10], db') ∧
      jobTypes (typesOf db' 10) Info.empty = some i ∧ i.noQuotas = false := ⟨_, _, rfl, rfl, rfl⟩

end Oar.Submission
