import Verif.ArchiveProps

/-!
# The launching, the end and the crashes on the current rows (C107)
-/

namespace Oar.Archive

theorem nextMold {db : DB} (i : Inv db) {j : Job} (hj : j ∈ db.jobs) (hw : j.state = "Waiting") : j.mold = 0 := by
  apply Classical.byContradiction
  intro hz
  exact (i.assigned j hj hz).1 (by rw [hw]; decide)

theorem no_rows {db : DB} (i : Inv db) {j : Job} {m : Mold} (hj : j ∈ db.jobs) (hw : j.state = "Waiting") (hm : m ∈ db.molds) (hmj : m.job = j.id) :
    ∀ a ∈ db.asg, a.mold ≠ m.id := by
  intro a ha e
  rcases i.asgJob a ha with ⟨h1, _⟩ | ⟨j', h1, h2, h3, _⟩
  · exact i.zero m hm (e.symm.trans h1)
  · obtain ⟨_, m', k1, k2, k3⟩ := i.assigned j' h1 h3
    have := uniq i.molds m' k1 m hm (k2.trans (h2.trans e))
    subst this
    have := uniq i.jobs j' h1 j hj (k3.symm.trans hmj)
    subst this
    exact h3 (nextMold i hj hw)

theorem setState_other (b : Base) (db : DB) (jid : Nat) (st : String) (h : st ≠ "Terminated" ∧ st ≠ "Error") :
    (setState b db jid st).asg = db.asg ∧ (setState b db jid st).res = db.res := by
  unfold setState
  cases hw : writeState db jid st with
  | none => exact ⟨rfl, rfl⟩
  | some db1 =>
    obtain ⟨rfl, _⟩ := writeState_some hw
    dsimp only
    rw [if_neg (fun he => he.elim h.1 h.2)]
    exact ⟨rfl, rfl⟩

/-- **C107, the launching.** A waiting job whose prediction has resources is launched without exception; its current resources are then exactly those of the prediction, and
those of the other moldables do not change. -/
theorem launch_exact {b : Base} (hb : b.sqlite = false) {db : DB} (h : History b db) {j : Job} {m : Mold} (hj : j ∈ db.jobs) (hw : j.state = "Waiting")
    (hm : m ∈ db.molds) (hmj : m.job = j.id) (hg : ∃ i, (m.id, i) ∈ db.gantt) :
    ∃ db', prepare b db j.id m.id = some db' ∧
      (∀ i, i ∈ currentResources db' m.id ↔ (m.id, i) ∈ db.gantt ∧ ∃ r ∈ db.res, r.id = i) ∧
      (∀ k, k ≠ m.id → currentResources db' k = currentResources db k) ∧
      ∃ j' ∈ db'.jobs, j'.id = j.id ∧ j'.mold = m.id ∧ j'.state = "toLaunch" := by
  have i := inv_history hb h
  have hno := no_rows i hj hw hm hmj
  have hrows : pairRows (setMold db j.id m.id) m.id = db.gantt.filter (fun g => g.1 == m.id) := by
    rcases pairRows_cases (setMold db j.id m.id) m.id with ⟨h1, _⟩ | ⟨_, h2⟩
    · obtain ⟨x, hx⟩ := hg
      exact absurd (by simp) (List.filter_eq_nil_iff.1 h1 (m.id, x) hx)
    · exact h2
  have hadd : addPairs (setMold db j.id m.id) m.id = some { setMold db j.id m.id with
      asg := db.asg ++ (db.gantt.filter (fun g => g.1 == m.id)).map (fun p => { mold := p.1, rid := p.2 }) } := by
    unfold addPairs
    rw [hrows, if_neg]
    · rfl
    · intro hc
      obtain ⟨p, hp, hc'⟩ := List.any_eq_true.1 hc
      obtain ⟨a, ha, e⟩ := List.any_eq_true.1 hc'
      simp only [Bool.and_eq_true, beq_iff_eq] at e
      have : p.1 = m.id := by simpa using (List.mem_filter.1 hp).2
      exact hno a ha (e.1.trans this)
  refine ⟨_, by unfold prepare; rw [hadd], ?_, ?_, ?_⟩
  · intro x
    rw [mem_currentResources, (setState_other b _ j.id "toLaunch" ⟨by decide, by decide⟩).1, (setState_other b _ j.id "toLaunch" ⟨by decide, by decide⟩).2]
    constructor
    · rintro ⟨⟨a, a1, a2, a3, a4⟩, hr⟩
      refine ⟨?_, hr⟩
      rcases List.mem_append.1 a1 with h1 | h1
      · exact absurd a3 (hno a h1)
      · obtain ⟨p, hp, rfl⟩ := List.mem_map.1 h1
        rw [← a3, ← a4]
        exact (List.mem_filter.1 hp).1
    · rintro ⟨hx, hr⟩
      exact ⟨⟨⟨m.id, x, true⟩, List.mem_append_right _ (List.mem_map.2 ⟨(m.id, x), List.mem_filter.2 ⟨hx, by simp⟩, rfl⟩), rfl, rfl, rfl⟩, hr⟩
  · intro k hk
    unfold currentResources
    rw [(setState_other b _ j.id "toLaunch" ⟨by decide, by decide⟩).1, (setState_other b _ j.id "toLaunch" ⟨by decide, by decide⟩).2]
    show List.flatMap _ (List.filter _ (db.asg ++ _)) = List.flatMap _ (List.filter _ db.asg)
    rw [List.filter_append]
    have : List.filter (fun a : Asg => a.cur && a.mold == k) ((db.gantt.filter (fun g => g.1 == m.id)).map (fun p => { mold := p.1, rid := p.2 })) = [] := by
      rw [List.filter_eq_nil_iff]
      intro a ha hc
      obtain ⟨p, hp, rfl⟩ := List.mem_map.1 ha
      have : p.1 = m.id := by simpa using (List.mem_filter.1 hp).2
      simp only [Bool.true_and, beq_iff_eq] at hc
      exact hk (hc.symm.trans this)
    rw [this, List.append_nil]
    rfl
  · unfold setState
    have hwr : ∃ d, writeState { setMold db j.id m.id with
        asg := db.asg ++ (db.gantt.filter (fun g => g.1 == m.id)).map (fun p => { mold := p.1, rid := p.2 }) } j.id "toLaunch" = some d := by
      unfold writeState
      rw [if_pos]
      · exact ⟨_, rfl⟩
      · rw [List.any_eq_true]
        refine ⟨{ j with mold := m.id }, List.mem_map.2 ⟨j, hj, by rw [if_pos rfl]⟩, ?_⟩
        simp [hw, leavable]
    obtain ⟨d, hd⟩ := hwr
    rw [hd]
    dsimp only
    rw [if_neg (by decide), (writeState_some hd).1]
    refine ⟨{ j with mold := m.id, state := "toLaunch" }, ?_, rfl, rfl, rfl⟩
    refine List.mem_map.2 ⟨{ j with mold := m.id }, List.mem_map.2 ⟨j, hj, by rw [if_pos rfl]⟩, ?_⟩
    rw [if_pos rfl]

/-- **C107, the end of a job concerns no other job**: the current resources of the other jobs stay. -/
theorem end_others {b : Base} (hb : b.sqlite = false) {db : DB} (h : History b db) (jid : Nat) (st : String) {k : Job} (hk : k ∈ db.jobs) (hne : k.id ≠ jid) :
    currentResources (setState b db jid st) k.mold = currentResources db k.mold := by
  have i := inv_history hb h
  unfold setState
  cases hw : writeState db jid st with
  | none => rfl
  | some db1 =>
    obtain ⟨rfl, o, ho, hid, hl, _⟩ := writeState_some hw
    dsimp only
    by_cases he : st = "Terminated" ∨ st = "Error"
    · rw [if_pos he, find_written i.jobs ho hid]
      dsimp only
      unfold logJob
      rw [if_neg (by rw [hb]; decide)]
      dsimp only
      by_cases hz : o.mold ≠ 0
      · rw [if_pos hz]
        unfold currentResources
        dsimp only
        have hd : k.mold ≠ o.mold := by
          intro e
          obtain ⟨_, m, k1, k2, k3⟩ := i.assigned o ho hz
          obtain ⟨_, m', q1, q2, q3⟩ := i.assigned k hk (by rw [e]; exact hz)
          have := uniq i.molds m' q1 m k1 (q2.trans (e.trans k2.symm))
          subst this
          exact hne (q3.symm.trans (k3.trans hid))
        congr 1
        have hf : ∀ l : List Asg, (l.map (fun a => if a.cur = true ∧ a.mold = o.mold then { a with cur := false } else a)).filter (fun a => a.cur && a.mold == k.mold) =
            l.filter (fun a => a.cur && a.mold == k.mold) := by
          intro l
          induction l with
          | nil => rfl
          | cons a as ih =>
            rw [List.map_cons, List.filter_cons, List.filter_cons, ih]
            by_cases c : a.cur = true ∧ a.mold = o.mold
            · rw [if_pos c]
              have hx : ¬ a.mold = k.mold := fun e => hd (e.symm.trans c.2)
              simp [hx]
            · rw [if_neg c]
        exact hf db.asg
      · rw [if_neg hz]; rfl
    · rw [if_neg he]; rfl

/-- **C107, the nodes taken out of a job** (PostgreSQL): exactly the resources of these nodes leave the current ones of this moldable. -/
theorem nodes_exact {b : Base} (hb : b.pg = true) (db : DB) (mold : Nat) (hosts : List String) (k i : Nat) :
    i ∈ currentResources (archiveNodes b db mold hosts) k ↔ i ∈ currentResources db k ∧ ¬ (k = mold ∧ ∃ r ∈ db.res, r.id = i ∧ r.host ∈ hosts) := by
  have e : archiveNodes b db mold hosts = { db with asg := db.asg.map (fun a =>
        if a.mold = mold ∧ db.res.any (fun r => r.id == a.rid && decide (r.host ∈ hosts)) = true then { a with cur := false } else a) } := by
    unfold archiveNodes; rw [if_pos hb]
  rw [e, mem_currentResources, mem_currentResources]
  have hany : ∀ a : Asg, db.res.any (fun r => r.id == a.rid && decide (r.host ∈ hosts)) = true ↔ ∃ r ∈ db.res, r.id = a.rid ∧ r.host ∈ hosts := by
    intro a
    rw [List.any_eq_true]
    simp only [Bool.and_eq_true, beq_iff_eq, decide_eq_true_eq]
  dsimp only
  constructor
  · rintro ⟨⟨a', h1, h2, h3, h4⟩, hr⟩
    obtain ⟨a, ha, rfl⟩ := List.mem_map.1 h1
    by_cases c : a.mold = mold ∧ db.res.any (fun r => r.id == a.rid && decide (r.host ∈ hosts)) = true
    · rw [if_pos c] at h2; cases h2
    · rw [if_neg c] at h2 h3 h4
      refine ⟨⟨⟨a, ha, h2, h3, h4⟩, hr⟩, ?_⟩
      rintro ⟨e1, e2⟩
      exact c ⟨h3.trans e1, (hany a).2 (by rw [h4]; exact e2)⟩
  · rintro ⟨⟨⟨a, ha, h2, h3, h4⟩, hr⟩, hn⟩
    refine ⟨⟨a, List.mem_map.2 ⟨a, ha, ?_⟩, h2, h3, h4⟩, hr⟩
    rw [if_neg]
    rintro ⟨c1, c2⟩
    have := (hany a).1 c2
    rw [h4] at this
    exact hn ⟨h3.symm.trans c1, this⟩

theorem logJob_pairs (b : Base) (db : DB) (j : Job) :
    (logJob b db j).deps.map (fun d => (d.job, d.required)) = db.deps.map (fun d => (d.job, d.required)) ∧
    (logJob b db j).types.map (fun t => (t.job, t.name)) = db.types.map (fun t => (t.job, t.name)) ∧
    (logJob b db j).asg.map (fun a => (a.mold, a.rid)) = db.asg.map (fun a => (a.mold, a.rid)) := by
  unfold logJob
  split
  · exact ⟨rfl, rfl, rfl⟩
  · dsimp only
    refine ⟨?_, ?_, ?_⟩
    · rw [List.map_map]
      apply List.map_congr_left
      intro d _
      show ((if _ then _ else d : Dep).job, (if _ then _ else d : Dep).required) = _
      split <;> rfl
    · rw [List.map_map]
      apply List.map_congr_left
      intro d _
      show ((if _ then _ else d : Typ).job, (if _ then _ else d : Typ).name) = _
      split <;> rfl
    · split
      · rw [List.map_map]
        apply List.map_congr_left
        intro d _
        show ((if _ then _ else d : Asg).mold, (if _ then _ else d : Asg).rid) = _
        split <;> rfl
      · rfl

theorem setState_pairs (b : Base) (db : DB) (jid : Nat) (st : String) :
    (setState b db jid st).deps.map (fun d => (d.job, d.required)) = db.deps.map (fun d => (d.job, d.required)) ∧
    (setState b db jid st).types.map (fun t => (t.job, t.name)) = db.types.map (fun t => (t.job, t.name)) ∧
    (setState b db jid st).asg.map (fun a => (a.mold, a.rid)) = db.asg.map (fun a => (a.mold, a.rid)) := by
  unfold setState
  cases hw : writeState db jid st with
  | none => exact ⟨rfl, rfl, rfl⟩
  | some db1 =>
    obtain ⟨rfl, _⟩ := writeState_some hw
    dsimp only
    split
    · split
      · exact ⟨rfl, rfl, rfl⟩
      · exact logJob_pairs b _ _
    · exact ⟨rfl, rfl, rfl⟩

/-- **C107, nothing is lost**: no action of the server deletes a dependency, a type or an assigned resource; archiving changes only the index. -/
theorem rows_kept {b : Base} {db db' : DB} (h : Step b db db') :
    db.deps.map (fun d => (d.job, d.required)) <+: db'.deps.map (fun d => (d.job, d.required)) ∧
    db.types.map (fun t => (t.job, t.name)) <+: db'.types.map (fun t => (t.job, t.name)) ∧
    db.asg.map (fun a => (a.mold, a.rid)) <+: db'.asg.map (fun a => (a.mold, a.rid)) := by
  cases h with
  | submit jid state molds groups descs types deps =>
    refine ⟨?_, ?_, List.prefix_refl _⟩
    · show _ <+: List.map _ (db.deps ++ _)
      rw [List.map_append]; exact List.prefix_append _ _
    · show _ <+: List.map _ (db.types ++ _)
      rw [List.map_append]; exact List.prefix_append _ _
  | state jid st =>
    obtain ⟨h1, h2, h3⟩ := setState_pairs b db jid st
    rw [h1, h2, h3]
    exact ⟨List.prefix_refl _, List.prefix_refl _, List.prefix_refl _⟩
  | launch j m _ hj hw hm hmj h =>
    unfold prepare at h
    cases ha : addPairs (setMold db j.id m.id) m.id with
    | none => rw [ha] at h; cases h
    | some db1 =>
      rw [ha] at h
      obtain ⟨rfl, _⟩ := addPairs_some ha
      rw [← Option.some.inj h]
      obtain ⟨h1, h2, h3⟩ := setState_pairs b { setMold db j.id m.id with
        asg := (setMold db j.id m.id).asg ++ (pairRows (setMold db j.id m.id) m.id).map (fun p => { mold := p.1, rid := p.2 }) } j.id "toLaunch"
      rw [h1, h2, h3]
      refine ⟨List.prefix_refl _, List.prefix_refl _, ?_⟩
      show _ <+: List.map _ (db.asg ++ _)
      rw [List.map_append]; exact List.prefix_append _ _
  | nodes mold hosts =>
    unfold archiveNodes
    split
    · refine ⟨List.prefix_refl _, List.prefix_refl _, ?_⟩
      dsimp only
      have e : (db.asg.map (fun a => if a.mold = mold ∧ db.res.any (fun r => r.id == a.rid && decide (r.host ∈ hosts)) = true then { a with cur := false } else a)).map
          (fun a => (a.mold, a.rid)) = db.asg.map (fun a => (a.mold, a.rid)) := by
        rw [List.map_map]
        apply List.map_congr_left
        intro a _
        show ((if _ then _ else a : Asg).mold, (if _ then _ else a : Asg).rid) = _
        split <;> rfl
      rw [e]
      exact List.prefix_refl _
    · exact ⟨List.prefix_refl _, List.prefix_refl _, List.prefix_refl _⟩
  | schedule g => exact ⟨List.prefix_refl _, List.prefix_refl _, List.prefix_refl _⟩
  | resources r => exact ⟨List.prefix_refl _, List.prefix_refl _, List.prefix_refl _⟩

/-! ## What fails -/

/-- **C107, violated with sqlite**: nothing is archived, so that the hosts of a job and the occupied nodes are the same after its end as before. -/
theorem sqlite_violated {b : Base} (hb : b.sqlite = true) (db : DB) (jid : Nat) (st : String) (k : Nat) :
    hostnames (setState b db jid st) k = hostnames db k ∧ assignedNodes (setState b db jid st) = assignedNodes db := by
  unfold setState
  cases hw : writeState db jid st with
  | none => exact ⟨rfl, rfl⟩
  | some db1 =>
    obtain ⟨rfl, _⟩ := writeState_some hw
    dsimp only
    split
    · split
      · exact ⟨rfl, rfl⟩
      · unfold logJob
        rw [if_pos hb]
        exact ⟨rfl, rfl⟩
    · exact ⟨rfl, rfl⟩

/-- **C107, violated with another database than PostgreSQL**: the nodes that failed at the start of a job stay among its nodes. -/
theorem nodes_violated {b : Base} (hb : b.pg = false) (db : DB) (mold : Nat) (hosts : List String) : archiveNodes b db mold hosts = db := by
  unfold archiveNodes
  rw [if_neg (by rw [hb]; decide)]

theorem stuck_step {b : Base} {db : DB} {jid : Nat} {a : Asg} {m : Mold} (ha : a ∈ db.asg) (hm : m ∈ db.molds) (hmj : m.job = jid)
    (hend : ∀ j ∈ db.jobs, j.id = jid → Ended j) (hone : ∀ j ∈ db.jobs, j.mold = a.mold → j.id = jid) (k : Nat) (st : String) :
    a ∈ (setState b db k st).asg ∧ m ∈ (setState b db k st).molds ∧ (setState b db k st).res = db.res ∧
    (∀ j ∈ (setState b db k st).jobs, j.id = jid → Ended j) ∧ (∀ j ∈ (setState b db k st).jobs, j.mold = a.mold → j.id = jid) := by
  unfold setState
  cases hw : writeState db k st with
  | none => exact ⟨ha, hm, rfl, hend, hone⟩
  | some db1 =>
    obtain ⟨rfl, o, ho, hid, hl, _⟩ := writeState_some hw
    have hkj : k ≠ jid := fun e => leavable_not_ended hl (hend o ho (hid.trans e))
    have hend' : ∀ j ∈ db.jobs.map (fun j => if j.id = k then { j with state := st } else j), j.id = jid → Ended j := by
      intro j' h e
      obtain ⟨j, hj, rfl⟩ := List.mem_map.1 h
      by_cases c : j.id = k
      · rw [if_pos c] at e
        exact absurd (c.symm.trans e) hkj
      · rw [if_neg c] at e ⊢
        exact hend j hj e
    have hone' : ∀ j ∈ db.jobs.map (fun j => if j.id = k then { j with state := st } else j), j.mold = a.mold → j.id = jid := by
      intro j' h e
      obtain ⟨j, hj, rfl⟩ := List.mem_map.1 h
      by_cases c : j.id = k
      · rw [if_pos c] at e ⊢
        exact hone j hj e
      · rw [if_neg c] at e ⊢
        exact hone j hj e
    dsimp only
    split
    · split
      · exact ⟨ha, hm, rfl, hend', hone'⟩
      · rename_i x hx
        have hxm := List.mem_of_find?_eq_some hx
        have hxk : x.id = k := by have := List.find?_some hx; simpa using this
        have hxa : x.mold ≠ a.mold := fun e => hkj (hxk.symm.trans (hone' x hxm e))
        unfold logJob
        split
        · exact ⟨ha, hm, rfl, hend', hone'⟩
        · refine ⟨?_, ?_, rfl, hend', hone'⟩
          · dsimp only
            split
            · refine List.mem_map.2 ⟨a, ha, ?_⟩
              rw [if_neg (show ¬ (a.cur = true ∧ a.mold = x.mold) from fun c => hxa c.2.symm)]
            · exact ha
          · dsimp only
            refine List.mem_map.2 ⟨m, hm, ?_⟩
            rw [if_neg (show ¬ (m.cur = true ∧ m.job = x.id) from fun c => hkj (hxk.symm.trans (c.2.symm.trans hmj)))]
    · exact ⟨ha, hm, rfl, hend', hone'⟩

/-- **C107, violated by a crash** (or an exception, as a refused mail) between the writing of the final state and the archiving: the job is over, its nodes are still its
nodes and still occupied, and no later change of state of any job, this one included, archives them. -/
theorem crash_violated {b : Base} (hb : b.sqlite = false) {db db1 : DB} (h : History b db) {jid : Nat} {st : String} (he : st = "Terminated" ∨ st = "Error")
    (hw : writeState db jid st = some db1) (later : List (Nat × String)) {n : String} (hn : n ∈ hostnames db jid) :
    let d := later.foldl (fun d x => setState b d x.1 x.2) db1
    (∀ j ∈ d.jobs, j.id = jid → Ended j) ∧ n ∈ hostnames d jid ∧ n ∈ assignedNodes d := by
  have i := inv_history hb h
  obtain ⟨e, o, ho, hid, hl, _⟩ := writeState_some hw
  obtain ⟨a, a1, a2, ⟨m, m1, m2, m3, m4⟩, r, r1, r2, r3, r4, r5⟩ := ((hostnames_spec db jid).2 n).1 hn
  have main : ∀ (l : List (Nat × String)) (d : DB), a ∈ d.asg → m ∈ d.molds → r ∈ d.res → (∀ j ∈ d.jobs, j.id = jid → Ended j) → (∀ j ∈ d.jobs, j.mold = a.mold → j.id = jid) →
      a ∈ (l.foldl (fun d x => setState b d x.1 x.2) d).asg ∧ m ∈ (l.foldl (fun d x => setState b d x.1 x.2) d).molds ∧ r ∈ (l.foldl (fun d x => setState b d x.1 x.2) d).res ∧
      ∀ j ∈ (l.foldl (fun d x => setState b d x.1 x.2) d).jobs, j.id = jid → Ended j := by
    intro l
    induction l with
    | nil => intro d h1 h2 h3 h4 _; exact ⟨h1, h2, h3, h4⟩
    | cons x xs ih =>
      intro d h1 h2 h3 h4 h5
      obtain ⟨q1, q2, q3, q4, q5⟩ := stuck_step (b := b) h1 h2 m4 h4 h5 x.1 x.2
      exact ih _ q1 q2 (by rw [q3]; exact h3) q4 q5
  have hend : ∀ j ∈ db1.jobs, j.id = jid → Ended j := by
    rw [e]
    intro j' hj' hi
    obtain ⟨j, hj, rfl⟩ := List.mem_map.1 hj'
    by_cases c : j.id = jid
    · rw [if_pos c]; exact he
    · rw [if_neg c] at hi; exact absurd hi c
  have hone : ∀ j ∈ db1.jobs, j.mold = a.mold → j.id = jid := by
    rw [e]
    intro j' hj' hi
    obtain ⟨j, hj, rfl⟩ := List.mem_map.1 hj'
    have hz : a.mold ≠ 0 := by rw [← m3]; exact i.zero m m1
    have hjm : j.mold = a.mold := by revert hi; split <;> exact id
    obtain ⟨_, m', k1, k2, k3⟩ := i.assigned j hj (by rw [hjm]; exact hz)
    have := uniq i.molds m' k1 m m1 (k2.trans (hjm.trans m3.symm))
    subst this
    have : j.id = jid := k3.symm.trans m4
    rw [if_pos this]; exact this
  obtain ⟨q1, q2, q3, q4⟩ := main later db1 (by rw [e]; exact a1) (by rw [e]; exact m1) (by rw [e]; exact r1) hend hone
  refine ⟨q4, ((hostnames_spec _ jid).2 n).2 ⟨a, q1, a2, ⟨m, q2, m2, m3, m4⟩, r, q3, r2, r3, r4, r5⟩, ?_⟩
  unfold assignedNodes
  simp only [List.mem_flatMap, List.mem_filter, List.mem_map, Bool.and_eq_true, beq_iff_eq]
  exact ⟨a, ⟨q1, a2⟩, r, ⟨q3, r2, r5⟩, r3⟩

/-- **C107, violated by a crash of the metascheduler** between the writing of the resources of a job and its state: the job is still waiting, and each later launching of the
job with one of these resources raises. -/
theorem relaunch_violated {b : Base} {db db1 : DB} {j : Job} {mold i : Nat} (hj : j ∈ db.jobs) (hw : j.state = "Waiting")
    (h : addPairs (setMold db j.id mold) mold = some db1) (hi : (mold, i) ∈ db.gantt) (gantt : List (Nat × Nat)) (hi' : (mold, i) ∈ gantt) :
    (∃ j' ∈ db1.jobs, j'.id = j.id ∧ j'.state = "Waiting") ∧ prepare b { db1 with gantt := gantt } j.id mold = none := by
  obtain ⟨rfl, _⟩ := addPairs_some h
  have hrow : ∀ (d : DB), (mold, i) ∈ d.gantt → (mold, i) ∈ pairRows d mold := by
    intro d hd
    rcases pairRows_cases d mold with ⟨h1, _⟩ | ⟨_, h2⟩
    · exact absurd (by simp) (List.filter_eq_nil_iff.1 h1 _ hd)
    · rw [h2]; exact List.mem_filter.2 ⟨hd, by simp⟩
  refine ⟨⟨{ j with mold := mold }, List.mem_map.2 ⟨j, hj, by rw [if_pos rfl]⟩, rfl, hw⟩, ?_⟩
  unfold prepare addPairs
  rw [if_pos]
  rw [List.any_eq_true]
  refine ⟨(mold, i), hrow _ hi', ?_⟩
  rw [List.any_eq_true]
  exact ⟨⟨mold, i, true⟩, List.mem_append_right _ (List.mem_map.2 ⟨(mold, i), hrow _ hi, rfl⟩), by simp⟩

/-- **C107, violated without prediction**: the launching of a moldable without resource writes the row (0, 0), and the next one raises. -/
theorem empty_violated {b : Base} {db db1 : DB} {jid mold : Nat} (hn : ∀ g ∈ db.gantt, g.1 ≠ mold) (h : prepare b db jid mold = some db1)
    (gantt : List (Nat × Nat)) (k mold' : Nat) (hn' : ∀ g ∈ gantt, g.1 ≠ mold') :
    (0, 0) ∈ db1.asg.map (fun a => (a.mold, a.rid)) ∧ prepare b { db1 with gantt := gantt } k mold' = none := by
  have hrow : ∀ (d : DB) (x : Nat), (∀ g ∈ d.gantt, g.1 ≠ x) → pairRows d x = [(0, 0)] := by
    intro d x hd
    rcases pairRows_cases d x with ⟨_, h2⟩ | ⟨h1, _⟩
    · exact h2
    · exact absurd (List.filter_eq_nil_iff.2 (fun g hg => by simpa using hd g hg)) h1
  unfold prepare at h
  cases ha : addPairs (setMold db jid mold) mold with
  | none => rw [ha] at h; cases h
  | some d =>
    rw [ha] at h
    obtain ⟨rfl, _⟩ := addPairs_some ha
    rw [hrow (setMold db jid mold) mold hn] at h
    have hmem : (0, 0) ∈ db1.asg.map (fun a => (a.mold, a.rid)) := by
      rw [← Option.some.inj h, (setState_pairs b _ jid "toLaunch").2.2]
      simp
    refine ⟨hmem, ?_⟩
    obtain ⟨a, ha1, ha2⟩ := List.mem_map.1 hmem
    unfold prepare addPairs
    rw [if_pos]
    rw [hrow _ mold' hn', List.any_eq_true]
    refine ⟨(0, 0), by simp, ?_⟩
    rw [List.any_eq_true]
    refine ⟨a, ha1, ?_⟩
    have e1 := congrArg Prod.fst ha2
    have e2 := congrArg Prod.snd ha2
    simp only at e1 e2
    simp [e1, e2]

/-! ## A concrete case: two jobs, the second depends on the first; the first runs on two nodes, one fails at the start -/

/-- The tables before the launching. -/
def ex1 : DB :=
  { jobs := [⟨1, "Waiting", 0⟩, ⟨2, "Waiting", 0⟩], molds := [⟨5, 1, true⟩, ⟨6, 2, true⟩], groups := [⟨8, 5, true⟩, ⟨9, 6, true⟩], descs := [⟨8, true⟩, ⟨9, true⟩]
    types := [⟨1, "besteffort", true⟩], deps := [⟨2, 1, true⟩], gantt := [(5, 11), (5, 12)], res := [⟨11, "node1", "default"⟩, ⟨12, "node2", "default"⟩] }

theorem ex1_history : History {} ex1 := by
  have h1 := History.step {} _ (.start (b := {})) (.submit 1 "Waiting" [5] [(8, 5)] [8] ["besteffort"] [] (Or.inl rfl) (by simp) (by simp) (by simp) (by simp) (by simp) (by simp)
    (by simp) (by simp))
  have h2 := History.step _ _ h1 (.submit 2 "Waiting" [6] [(9, 6)] [9] [] [1] (Or.inl rfl) (by simp [submit]) (by simp) (by simp) (by simp [submit]) (by simp) (by simp [submit])
    (by simp) (by simp))
  have h3 := History.step _ _ h2 (.schedule [(5, 11), (5, 12)])
  exact History.step _ _ h3 (.resources [⟨11, "node1", "default"⟩, ⟨12, "node2", "default"⟩])

/-- The hypotheses are those of a real history, and the theorems are about something: the nodes of the job before and after the failure of one of them, after its end, and the
dependency of the other job. -/
theorem archive_example : History {} ex1 ∧
    ∃ db, prepare {} ex1 1 5 = some db ∧ hostnames db 1 = ["node1", "node2"] ∧ assignedNodes db = ["node1", "node2"] ∧
      hostnames (archiveNodes {} db 5 ["node2"]) 1 = ["node1"] ∧ toCheck (archiveNodes {} db 5 ["node2"]) ["node1", "node2"] = ["node2"] ∧
      assignedNodes (setState {} db 1 "Error") = [] ∧ dependencies (setState {} db 1 "Error") 2 = [(1, "Error")] ∧
      currentMold (setState {} db 1 "Error") 5 = none ∧ currentMold (setState {} db 1 "Error") 6 = some ⟨6, 2, true⟩ ∧
      hostnames (setState { sqlite := true } db 1 "Error") 1 = ["node1", "node2"] :=
  ⟨ex1_history, _, rfl, by decide +kernel, by decide +kernel, by decide +kernel, by decide +kernel, by decide +kernel, by decide +kernel, by decide +kernel, by decide +kernel,
    by decide +kernel⟩

end Oar.Archive
