import Verif.RoundProps

/-!
# A job that is launched holds what it asked for (C96)
-/

namespace Oar.Round

open Oar.Launch Oar.ResSet Oar.JobTypes Oar.Tools Oar.Queues Spec Oar.Kao.Spec Oar.Hierarchy Oar.Hierarchy.Spec

/-! ## From the search to the request -/

theorem toFinset_eq_of_mem {l : List Nat} {S : ProcSet} (h : ∀ k, k ∈ S ↔ k ∈ l) : S = l.toFinset := by
  ext k
  rw [h, List.mem_toFinset]

theorem groups_level {rs : List Res} {label : String} {d : List (String × List Nat)} (h : Groups rs (fun r => r.value label) d) :
    IsLevel rs label (d.map (fun b => b.2.toFinset)) := by
  obtain ⟨h1, h2, h3⟩ := h
  constructor
  · have hp : d.Pairwise (fun a b => a.1 ≠ b.1) := List.pairwise_map.1 h1
    rw [List.Nodup, List.pairwise_map]
    refine hp.imp_of_mem ?_
    intro a b ha hb hab e
    obtain ⟨ne, _, ka⟩ := h2 a.1 a.2 ha
    obtain ⟨_, _, kb⟩ := h2 b.1 b.2 hb
    obtain ⟨k, hk⟩ := List.exists_mem_of_ne_nil _ ne
    have hk2 : k ∈ b.2 := by rw [← List.mem_toFinset, ← e, List.mem_toFinset]; exact hk
    obtain ⟨r, r1, _, r2⟩ := (ka k).1 hk
    obtain ⟨r', r1', _, r2'⟩ := (kb k).1 hk2
    rw [r1, Option.some.injEq] at r1'
    subst r1'
    exact hab (r2.symm.trans r2')
  · intro S
    constructor
    · intro hS
      obtain ⟨b, hb, rfl⟩ := List.mem_map.1 hS
      obtain ⟨ne, _, kb⟩ := h2 b.1 b.2 hb
      obtain ⟨k, hk⟩ := List.exists_mem_of_ne_nil _ ne
      obtain ⟨r, r1, r2, r3⟩ := (kb k).1 hk
      refine ⟨k, r, r1, r2, fun k' => ?_⟩
      have r3' : r.value label = b.1 := r3
      rw [List.mem_toFinset, kb, r3']
      rfl
    · rintro ⟨k, r, r1, r2, r3⟩
      obtain ⟨b, hb, e⟩ := List.mem_map.1 (h3 k r r1 r2)
      obtain ⟨_, _, kb⟩ := h2 b.1 b.2 hb
      refine List.mem_map.2 ⟨b, hb, (toFinset_eq_of_mem ?_).symm⟩
      intro k'
      rw [kb, r3, e]
      rfl

theorem hy_lookup {susp labels : List String} {rs : List Res} {s : RS} (hn : (rs.map Res.id).Nodup) (hb : build susp labels rs = some s) {label : String} {B : List ProcSet}
    (h : (hyOf s).lookup label = some B) : IsLevel rs label B := by
  have key : ∀ l : List (String × List (String × List Nat)), (l.map (fun p => (p.1, p.2.map (fun b => b.2.toFinset)))).lookup label = some B →
      ∃ d, (label, d) ∈ l ∧ B = d.map (fun b => b.2.toFinset) := by
    intro l
    induction l with
    | nil => intro h; simp at h
    | cons p l ih =>
      intro h
      rw [List.map_cons, List.lookup_cons] at h
      by_cases e : label = p.1
      · have : (label == p.1) = true := by simpa using e
        rw [this] at h
        simp only [Option.some.injEq] at h
        exact ⟨p.2, by rw [e]; simp, h.symm⟩
      · have : (label == p.1) = false := by simpa using e
        rw [this] at h
        obtain ⟨d, hd, e2⟩ := ih h
        exact ⟨d, List.mem_cons_of_mem _ hd, e2⟩
  obtain ⟨d, hd, rfl⟩ := key s.hy h
  exact groups_level ((build_inv hn hb).hy label d hd)

theorem lookupLevels_forall {rs : List Res} {hy : Hy} (hl : ∀ label B, hy.lookup label = some B → IsLevel rs label B) :
    ∀ (levels : List (String × Int)) (ls : List (List ProcSet)), lookupLevels hy levels = some ls → List.Forall₂ (fun l B => IsLevel rs l.1 B) levels ls
  | [], ls, h => by
    simp only [lookupLevels, Option.some.injEq] at h
    subst h
    exact List.Forall₂.nil
  | (l, n) :: levels, ls, h => by
    unfold lookupLevels at h
    cases h1 : hy.lookup l with
    | none => rw [h1] at h; simp at h
    | some b =>
      cases h2 : lookupLevels hy levels with
      | none => rw [h1, h2] at h; simp at h
      | some bs =>
        rw [h1, h2] at h
        simp only [Option.some.injEq] at h
        subst h
        exact List.Forall₂.cons (hl l b h1) (lookupLevels_forall hl levels bs h2)

theorem findGroup_answers {rs : List Res} {hy : Hy} (hl : ∀ label B, hy.lookup label = some B → IsLevel rs label B) {avail : ProcSet} {g : Group} {r : ProcSet}
    (h : findGroup avail hy g = some r) (hr : r ≠ ∅) : AnswersGroup rs g r := by
  have hsub := findGroup_subset avail hy g r h
  refine ⟨hr, hsub.trans Finset.inter_subset_left, ?_⟩
  unfold findGroup at h
  cases hls : lookupLevels hy g.levels with
  | none => rw [hls] at h; simp at h
  | some ls =>
    rw [hls] at h
    dsimp only at h
    have hf := lookupLevels_forall hl _ _ hls
    have hlen := hf.length_eq
    cases ls with
    | nil => simp [findScattered] at h
    | cons top lower =>
      refine ⟨top, lower, hf, fun hpos => ?_⟩
      cases hg : g.levels with
      | nil => rw [hg] at hlen; simp at hlen
      | cons p ps =>
        rw [hg] at h hlen hpos
        simp only [List.map_cons] at h hpos ⊢
        have := (findScattered_shape _ top lower p.2 (ps.map (·.2)) r (by simpa using hlen) (fun e => hpos e p.2 (by simp)) h hr).1
        exact granted_mono Finset.inter_subset_left _ _ _ _ this

theorem findJob_answers {rs : List Res} {hy : Hy} (hl : ∀ label B, hy.lookup label = some B → IsLevel rs label B) {avail : ProcSet} {gs : List Group} {R : ProcSet}
    (h : findJob avail gs hy = some R) (hr : R ≠ ∅) : Answers rs gs R := by
  obtain ⟨parts, h1, h2, h3⟩ := findJobLoop_spec avail hy gs ∅ R h hr
  refine ⟨parts, ?_, by rw [h2, Finset.empty_union]⟩
  rw [List.forall₂_iff_zip]
  refine ⟨h1.symm, fun {a b} hab => ?_⟩
  obtain ⟨k1, k2⟩ := h3 (a, b) hab
  exact findGroup_answers hl k1 k2

/-! ## The launched jobs -/

/-- The rows of a job come together: the resources of the extracted job are all those of its rows. -/
theorem extract_all {s : RS} {sec : Int} {rows : List Row} (hg : Grouped rows) (hw : ∀ r ∈ rows, r.job.state ≠ "Suspended") {e : EJob} (he : e ∈ extract s sec rows)
    {r : Row} (hr : r ∈ rows) (hid : r.job.id = e.job.id) : s.i2o r.rid ∈ e.res := by
  rw [extract_grouped s sec rows hg hw] at he
  obtain ⟨x, hx, rfl⟩ := List.mem_map.1 he
  obtain ⟨y, hy, y1, y2⟩ := runs_complete rows r hr
  have hnd := runs_nodup rows hg
  have : y = x := List.inj_on_of_nodup_map hnd hy hx (y1.trans hid)
  subst this
  exact List.mem_map.2 ⟨_, y2, rfl⟩

/-- **C96** (what holds). After a regular round, a job that was waiting and is launched starts now with one of its alternatives; it holds a non-empty set of resources that answers the request
of this alternative, each one usable and available until the end of the walltime; and alive, provided that the database gives the rows of a job together. -/
theorem launched_request_partial (cf : Conf) (ctx : Kao.Ctx) (susp labels : List String) (rs : List Res) (s : RS) (ord : List Row → List Row) (gs : List Grp) (now : Int)
    (db db' : DB) (code : Int) (hids : (rs.map Res.id).Nodup) (hbuild : build susp labels rs = some s) (hord : ∀ l, (ord l).Perm l) (hr : Regular cf ctx s gs now db)
    (hnow : now < Kao.maxTime) (h : round cf ctx s ord gs now db = some (db', code)) (a' : LJob) (ha' : a' ∈ db'.jobs) (hst : a'.state = "toLaunch")
    (hw : ∃ a ∈ db.jobs, a.id = a'.id ∧ a.state = "Waiting") :
    ∃ g ∈ gs, ∃ w ∈ g.waiting, w.id = a'.id ∧ ∃ m ∈ w.mlds, a'.mold = m.id ∧ a'.start = now ∧ ∃ R : ProcSet, R ≠ ∅ ∧ Answers rs m.groups R ∧
      (∀ r, Holds db' a' r ↔ ∃ k ∈ R, ∃ row, rs[k]? = some row ∧ row.id = r) ∧
      ∀ k ∈ R, ∃ row, rs[k]? = some row ∧ row.usable = true ∧ now + m.walltime ≤ row.upto ∧ ((∀ l, Grouped (ord l)) → row.state = "Alive") := by
  obtain ⟨db2, c2, sets, sets2, sched, js, ss0, done, Q, hb, _, q, hrows, hcase⟩ := round_facts hord hr h
  obtain ⟨hs, ht, hsi, hg, hn, hcal, _⟩ := hr
  have qjobs : db2.jobs = db.jobs := q.jobs
  have qass : db2.assigned = db.assigned := q.assigned
  obtain ⟨a0, ha0, aid, ast⟩ := hw
  have hold : a' ∉ db.jobs := by
    intro hm
    have : a0 = a' := nodup_inj hs.jobs ha0 hm aid
    rw [this, hst] at ast
    simp at ast
  have hinv := build_inv hids hbuild
  rcases hcase with ⟨_, _, hd, hL⟩ | ⟨_, k, ks, hd⟩
  · rw [hd] at ha'
    rcases launchAll_jobs now _ db2 a' ha' with ⟨k1, _⟩ | ⟨e, he, j0, hj0, k1, k2⟩
    · rw [qjobs] at k1
      exact absurd k1 hold
    · obtain ⟨q0, hq0, hdue⟩ := hL e he
      obtain ⟨he1, he2⟩ := List.mem_filter.1 he
      have hmold : a'.mold = e.mid := by rw [k2]; rfl
      have hid : a'.id = j0.id := by rw [k2]; rfl
      have hstart : a'.start = now := by rw [k2]; rfl
      obtain ⟨w, hwm, w1, m, hm, m1, ⟨m2, _⟩, R, m3, hans⟩ := q.ans q0 hq0
      obtain ⟨g, hgm, hwg⟩ := List.mem_flatMap.1 hwm
      have hq0s : q0.start = now := by
        have h1 := (q.free q0 hq0).1
        have h2 := hdue.start
        omega
      rw [hq0s] at hans
      -- the resources
      have hnum : ∀ k ∈ R, ∃ row, rs[k]? = some row ∧ row.usable = true ∧ s.o2i k = row.id ∧ s.i2o row.id = k := by
        intro k hk
        have hro := hb.alive now k (hans.free k hk now (le_refl _) (by omega))
        obtain ⟨row, r1, r2, _⟩ := (hinv.roids.2 k).1 hro
        obtain ⟨r3, r4⟩ := hinv.num k row r1 r2
        exact ⟨row, r1, r2, r4, r3⟩
      have hholds : ∀ r, Holds db' a' r ↔ ∃ k ∈ R, s.o2i k = r := by
        intro r
        unfold Holds
        rw [hd, launchAll_assigned, qass, hmold]
        constructor
        · rintro (h1 | ⟨h1, _⟩)
          · obtain ⟨jw, hjw, u1, u2⟩ := hdue.row
            obtain ⟨d, hd', d1, d2⟩ := hdue.mold
            exact absurd (by rw [d1]; exact h1) (hs.fresh jw hjw u2 d hd' (by rw [d2, u1]) r)
          · obtain ⟨k, c1, c2, _⟩ := hdue.res r h1
            exact ⟨k, (m3 k).1 c1, c2.symm⟩
        · rintro ⟨k, c1, rfl⟩
          exact Or.inr ⟨hdue.back k ((m3 k).2 c1), e, he, rfl⟩
      obtain ⟨A, _, hfind⟩ := hans.shape
      refine ⟨g, hgm, w, hwg, by rw [w1, hdue.id_, k1, hid], m, hm, by rw [hmold, ← hdue.mid, m1], hstart, R, hans.ne,
        findJob_answers (fun label B hB => hy_lookup hids hbuild hB) hfind hans.ne, fun r => ?_, fun k hk => ?_⟩
      · rw [hholds]
        constructor
        · rintro ⟨k, hk, rfl⟩
          obtain ⟨row, r1, _, r3, _⟩ := hnum k hk
          exact ⟨k, hk, row, r1, r3.symm⟩
        · rintro ⟨k, hk, row, r1, rfl⟩
          obtain ⟨row', r1', _, r3, _⟩ := hnum k hk
          rw [r1, Option.some.injEq] at r1'
          subst r1'
          exact ⟨k, hk, r3⟩
      · obtain ⟨row, r1, r2, r3, r4⟩ := hnum k hk
        refine ⟨row, r1, r2, ?_, fun hgr => ?_⟩
        · -- availability
          obtain ⟨_, gr, gall⟩ := hinv.upto
          obtain ⟨p, hp, pe⟩ := List.mem_map.1 (gall k row r1 r2)
          have hkp : k ∈ p.2 := ((gr p.1 p.2 hp).2.2 k).2 ⟨row, r1, r2, pe.symm⟩
          have hup := numbered_upto hn p hp
          by_contra hlt
          have pe' : p.1 = row.upto := pe
          rw [not_le, ← pe'] at hlt
          by_cases hc : p.1 ≤ now
          · have := hb.avail now k (hans.free k hk now (le_refl _) (by omega)) hnow p hp hkp
            omega
          · have := hb.avail p.1 k (hans.free k hk p.1 (by omega) hlt) hup p hp hkp
            omega
        · have hws : ∀ r ∈ dueRows cf ord now db2, r.job.state ≠ "Suspended" := fun r hr => by
            rw [((hrows r).1 hr).2.2]; decide
          obtain ⟨k', c1, c2, row', c3, c4, c5⟩ := hdue.res (s.o2i k) (hdue.back k ((m3 k).2 hk))
          have hin := extract_all (hgr _) hws he1 c3 c4
          rw [c5, r3, r4] at hin
          unfold ready at he2
          rw [Bool.and_eq_true, List.all_eq_true] at he2
          have hna := he2.2 k hin
          unfold Res.usable at r2
          rw [Bool.or_eq_true, beq_iff_eq, beq_iff_eq] at r2
          rcases r2 with r2 | r2
          · exact r2
          · have := (hinv.absent.2 k).2 ⟨row, r1, by unfold Res.usable; rw [r2]; rfl, r2⟩
            simp [this] at hna
  · obtain ⟨g1, _⟩ := killAll_same (k :: ks) db2
    rw [hd, g1, qjobs] at ha'
    exact absurd ha' hold

/-! ## Examples -/

/-- The hypotheses hold for the first round of the example of C95: both jobs are launched. -/
theorem launched_example : (exRows.map Res.id).Nodup ∧ build [] ["id"] exRows = some exS ∧ Regular { sec := 60 } exCtx exS exG1 100 exDb0 ∧ (100 : Int) < Kao.maxTime ∧
    exRun exG1 100 exDb0 = some (exDb1, 0) ∧ (∃ a ∈ exDb1.jobs, a.id = 2 ∧ a.state = "toLaunch") ∧ (∃ a ∈ exDb0.jobs, a.id = 2 ∧ a.state = "Waiting") ∧
    exDb1.assigned = [(11, 5), (12, 7)] := by
  refine ⟨by decide, exS_build, exRegular (by decide +kernel) (by decide +kernel) (by decide +kernel) (by decide +kernel) (by decide +kernel) (by decide +kernel)
      ⟨by decide +kernel, by decide +kernel, by decide +kernel, by decide +kernel, by decide +kernel⟩ (by decide +kernel), by decide +kernel, by decide +kernel, by decide +kernel,
      by decide +kernel, by decide +kernel⟩

/-- The order by identifier is an order in which the rows of a job come together. -/
theorem byId_grouped (l : List Row) : (pySort (fun r : Row => r.job.id) l).Perm l ∧ Grouped (pySort (fun r : Row => r.job.id) l) := by
  have h := sorted_spec (fun r : Row => r.job.id) l
  refine ⟨h.1, ?_⟩
  have hp := h.2.1
  generalize pySort (fun r : Row => r.job.id) l = o at hp
  clear h
  induction o with
  | nil => trivial
  | cons a o ih =>
    have hp1 : (∀ b ∈ o, a.job.id ≤ b.job.id) ∧ o.Pairwise (fun a b => a.job.id ≤ b.job.id) := List.pairwise_cons.1 hp
    refine ⟨ih hp1.2, ?_⟩
    rintro ⟨x, hx, e⟩
    cases o with
    | nil => simp at hx
    | cons y t =>
      refine ⟨y, t, rfl, ?_⟩
      have h1 := hp1.1 y (by simp)
      rcases List.mem_cons.1 hx with rfl | hx
      · exact e
      · have := (List.pairwise_cons.1 hp1.2).1 x hx
        omega

/-! ## Where the property fails -/

/-- Four machines, the first one is switched off (Absent, available on demand). -/
def offRows : List Res := [(5, "Absent"), (7, "Alive"), (9, "Alive"), (11, "Alive")].map (fun p => ⟨p.1, p.2, "default", 2147483646, "n", fun _ => ""⟩)

def offS : RS := (build [] ["id"] offRows).getD (ResSet.init [])

/-- Two jobs of two machines. -/
def offDb : DB := ⟨[exJob 1 "Waiting" [] 0 0, exJob 2 "Waiting" [] 0 0], [⟨11, 1, 500⟩, ⟨12, 2, 500⟩], [], [], [], [], [], []⟩

def offWait (id mid : Nat) : Kao.Job := { id := id, mlds := [⟨mid, 500, [⟨[("id", 2)], {0, 1, 2, 3}⟩]⟩] }

def offGs : List Grp := [⟨["default"], [offWait 1 11, offWait 2 12], []⟩]

/-- The rows of the answer come in the order of a hash of the resources. -/
def hashOrd (l : List Row) : List Row := pySort (fun r : Row => r.rid % 4) l

theorem offS_build : build [] ["id"] offRows = some offS := by
  unfold offS
  cases h : build [] ["id"] offRows with
  | none => exact absurd h (by simp [build, load, addRes, offRows, Res.usable, maxRes])
  | some s => rfl

/-- **C96** is violated: the query of the jobs to launch has no order; when the rows of two jobs are mixed, a job is launched on a machine that is switched off. -/
theorem launched_off_violated : (∀ l, (hashOrd l).Perm l) ∧ Regular { sec := 60 } exCtx offS offGs 100 offDb ∧
    ∃ db', round { sec := 60 } exCtx offS hashOrd offGs 100 offDb = some (db', 0) ∧ (∃ a' ∈ db'.jobs, a'.id = 1 ∧ a'.state = "toLaunch" ∧ Holds db' a' 5) ∧
      ∃ r ∈ offRows, r.id = 5 ∧ r.state = "Absent" := by
  refine ⟨fun l => (sorted_spec _ l).1, ⟨sound_of (by decide +kernel) (by decide +kernel) (by decide +kernel) (by decide +kernel), by unfold OnTime; decide +kernel,
    by unfold Simple; decide +kernel, ⟨by decide +kernel, by decide +kernel, by decide +kernel, by decide +kernel, by decide +kernel⟩,
    ⟨[], ["id"], offRows, by decide, offS_build, by simp [offRows, Kao.maxTime], Or.inl rfl⟩, rfl, by decide +kernel⟩,
    ((round { sec := 60 } exCtx offS hashOrd offGs 100 offDb).map (·.1)).getD offDb, by decide +kernel, by decide +kernel, ?_⟩
  exact ⟨⟨5, "Absent", "default", 2147483646, "n", fun _ => ""⟩, by simp [offRows], rfl, rfl⟩

end Oar.Round
