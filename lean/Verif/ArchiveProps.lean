import Verif.ArchiveSpec

/-!
# The current rows of the jobs (C107)
-/

namespace Oar.Archive

/-- What holds in every history of a server whose database archives. -/
structure Inv (db : DB) : Prop where
  jobs : (db.jobs.map Job.id).Nodup
  molds : (db.molds.map Mold.id).Nodup
  groups : (db.groups.map Group.id).Nodup
  zero : ∀ m ∈ db.molds, m.id ≠ 0
  moldJob : ∀ m ∈ db.molds, ∃ j ∈ db.jobs, j.id = m.job ∧ (m.cur = true ↔ ¬ Ended j)
  groupMold : ∀ g ∈ db.groups, ∃ m ∈ db.molds, m.id = g.mold ∧ g.cur = m.cur
  descGroup : ∀ d ∈ db.descs, ∃ g ∈ db.groups, g.id = d.group ∧ d.cur = g.cur
  typeJob : ∀ t ∈ db.types, ∃ j ∈ db.jobs, j.id = t.job ∧ (t.cur = true ↔ ¬ Ended j)
  depJob : ∀ d ∈ db.deps, ∃ j ∈ db.jobs, j.id = d.job ∧ (d.cur = true ↔ ¬ Ended j)
  assigned : ∀ j ∈ db.jobs, j.mold ≠ 0 → j.state ∉ early ∧ ∃ m ∈ db.molds, m.id = j.mold ∧ m.job = j.id
  asgJob : ∀ a ∈ db.asg, (a.mold = 0 ∧ a.rid = 0) ∨ ∃ j ∈ db.jobs, j.mold = a.mold ∧ j.mold ≠ 0 ∧ (a.cur = true → ¬ Ended j)

theorem uniq {α : Type} {f : α → Nat} {l : List α} (h : (l.map f).Nodup) : ∀ a ∈ l, ∀ b ∈ l, f a = f b → a = b := by
  induction l with
  | nil => intro a ha; cases ha
  | cons x xs ih =>
    rw [List.map_cons, List.nodup_cons] at h
    intro a ha b hb e
    rcases List.mem_cons.1 ha with h1 | ha' <;> rcases List.mem_cons.1 hb with h2 | hb'
    · rw [h1, h2]
    · rw [h1] at e; exact absurd (List.mem_map.2 ⟨b, hb', e.symm⟩) h.1
    · rw [h2] at e; exact absurd (List.mem_map.2 ⟨a, ha', e⟩) h.1
    · exact ih h.2 a ha' b hb' e

theorem nodup_append {l m : List Nat} (h1 : l.Nodup) (h2 : m.Nodup) (h : ∀ a ∈ l, a ∉ m) : (l ++ m).Nodup :=
  List.nodup_append.2 ⟨h1, h2, fun a ha _ hb e => h a ha (e ▸ hb)⟩

theorem early_not_ended {j : Job} (h : j.state ∈ early) : ¬ Ended j := by
  rintro (e | e) <;> rw [e] at h <;> exact absurd h (by decide)

theorem inv_submit {db : DB} (i : Inv db) {jid : Nat} {state : String} {molds : List Nat} {groups : List (Nat × Nat)} {descs : List Nat} {types : List String} {deps : List Nat}
      (hs : state = "Waiting" ∨ state = "Hold") (hj : ∀ j ∈ db.jobs, j.id ≠ jid) (hm : molds.Nodup) (hm0 : 0 ∉ molds) (hmf : ∀ m ∈ db.molds, m.id ∉ molds)
      (hg : (groups.map Prod.fst).Nodup) (hgf : ∀ g ∈ db.groups, g.id ∉ groups.map Prod.fst) (hgm : ∀ g ∈ groups, g.2 ∈ molds)
      (hd : ∀ d ∈ descs, d ∈ groups.map Prod.fst) : Inv (submit db jid state molds groups descs types deps) := by
  have hne : ¬ Ended { id := jid, state := state } := by
    rintro (e | e) <;> rcases hs with h | h <;> simp only at e <;> rw [h] at e <;> exact absurd e (by decide)
  have hnew : ({ id := jid, state := state } : Job) ∈ db.jobs ++ [{ id := jid, state := state }] := List.mem_append_right _ List.mem_cons_self
  unfold submit
  refine ⟨?_, ?_, ?_, ?_, ?_, ?_, ?_, ?_, ?_, ?_, ?_⟩
  · show (List.map Job.id (db.jobs ++ _)).Nodup
    rw [List.map_append]
    apply nodup_append i.jobs (by simp)
    intro a ha
    obtain ⟨j, h1, h2⟩ := List.mem_map.1 ha
    have := hj j h1
    simp only [List.map_cons, List.map_nil, List.mem_singleton]
    omega
  · show (List.map Mold.id (db.molds ++ _)).Nodup
    rw [List.map_append, List.map_map, show (Mold.id ∘ fun m => ({ id := m, job := jid } : Mold)) = id from rfl, List.map_id]
    apply nodup_append i.molds hm
    intro a ha
    obtain ⟨m, h1, h2⟩ := List.mem_map.1 ha
    rw [← h2]; exact hmf m h1
  · show (List.map Group.id (db.groups ++ _)).Nodup
    rw [List.map_append, List.map_map, show (Group.id ∘ fun g : Nat × Nat => ({ id := g.1, mold := g.2 } : Group)) = Prod.fst from rfl]
    apply nodup_append i.groups hg
    intro a ha
    obtain ⟨m, h1, h2⟩ := List.mem_map.1 ha
    rw [← h2]; exact hgf m h1
  · intro m h
    rcases List.mem_append.1 h with h | h
    · exact i.zero m h
    · obtain ⟨x, hx, rfl⟩ := List.mem_map.1 h
      show x ≠ 0
      rintro rfl
      exact hm0 hx
  · intro m h
    rcases List.mem_append.1 h with h | h
    · obtain ⟨j, h1, h2⟩ := i.moldJob m h
      exact ⟨j, List.mem_append_left _ h1, h2⟩
    · obtain ⟨x, hx, rfl⟩ := List.mem_map.1 h
      exact ⟨_, hnew, rfl, by simp [hne]⟩
  · intro g h
    rcases List.mem_append.1 h with h | h
    · obtain ⟨j, h1, h2⟩ := i.groupMold g h
      exact ⟨j, List.mem_append_left _ h1, h2⟩
    · obtain ⟨x, hx, rfl⟩ := List.mem_map.1 h
      exact ⟨⟨x.2, jid, true⟩, List.mem_append_right _ (List.mem_map.2 ⟨x.2, hgm x hx, rfl⟩), rfl, rfl⟩
  · intro g h
    rcases List.mem_append.1 h with h | h
    · obtain ⟨j, h1, h2⟩ := i.descGroup g h
      exact ⟨j, List.mem_append_left _ h1, h2⟩
    · obtain ⟨x, hx, rfl⟩ := List.mem_map.1 h
      obtain ⟨y, hy, e⟩ := List.mem_map.1 (hd x hx)
      exact ⟨⟨y.1, y.2, true⟩, List.mem_append_right _ (List.mem_map.2 ⟨y, hy, rfl⟩), e, rfl⟩
  · intro m h
    rcases List.mem_append.1 h with h | h
    · obtain ⟨j, h1, h2⟩ := i.typeJob m h
      exact ⟨j, List.mem_append_left _ h1, h2⟩
    · obtain ⟨x, hx, rfl⟩ := List.mem_map.1 h
      exact ⟨_, hnew, rfl, by simp [hne]⟩
  · intro m h
    rcases List.mem_append.1 h with h | h
    · obtain ⟨j, h1, h2⟩ := i.depJob m h
      exact ⟨j, List.mem_append_left _ h1, h2⟩
    · obtain ⟨x, hx, rfl⟩ := List.mem_map.1 h
      exact ⟨_, hnew, rfl, by simp [hne]⟩
  · intro j h hz
    rcases List.mem_append.1 h with h | h
    · obtain ⟨h1, m, h2, h3⟩ := i.assigned j h hz
      exact ⟨h1, m, List.mem_append_left _ h2, h3⟩
    · rw [List.mem_singleton.1 h] at hz
      exact absurd rfl hz
  · intro a h
    rcases i.asgJob a h with h1 | ⟨j, h1, h2⟩
    · exact Or.inl h1
    · exact Or.inr ⟨j, List.mem_append_left _ h1, h2⟩

theorem inv_nodes {db : DB} (i : Inv db) (b : Base) (mold : Nat) (hosts : List String) : Inv (archiveNodes b db mold hosts) := by
  unfold archiveNodes
  split
  · refine ⟨i.jobs, i.molds, i.groups, i.zero, i.moldJob, i.groupMold, i.descGroup, i.typeJob, i.depJob, i.assigned, ?_⟩
    intro a h
    obtain ⟨x, hx, rfl⟩ := List.mem_map.1 h
    have := i.asgJob x hx
    split
    · rcases this with h1 | ⟨j, h1, h2, h3, h4⟩
      · exact Or.inl h1
      · exact Or.inr ⟨j, h1, h2, h3, by simp⟩
    · exact this
  · exact i

/-- What the writing of a state does. -/
theorem writeState_some {db db1 : DB} {jid : Nat} {st : String} (h : writeState db jid st = some db1) :
    db1 = { db with jobs := db.jobs.map (fun j => if j.id = jid then { j with state := st } else j) } ∧
    ∃ j ∈ db.jobs, j.id = jid ∧ j.state ∈ leavable ∧ j.state ≠ st := by
  unfold writeState at h
  split at h
  · rename_i hc
    refine ⟨(Option.some.inj h).symm, ?_⟩
    obtain ⟨j, h1, h2⟩ := List.any_eq_true.1 hc
    simp only [Bool.and_eq_true, beq_iff_eq, decide_eq_true_eq, bne_iff_ne] at h2
    exact ⟨j, h1, h2.1.1, h2.1.2, h2.2⟩
  · cases h

theorem leavable_not_ended {j : Job} (h : j.state ∈ leavable) : ¬ Ended j := by
  rintro (e | e) <;> rw [e] at h <;> exact absurd h (by decide)

theorem ids_state (l : List Job) (jid : Nat) (st : String) : (l.map (fun j => if j.id = jid then { j with state := st } else j)).map Job.id = l.map Job.id := by
  rw [List.map_map]
  apply List.map_congr_left
  intro j _
  show (if j.id = jid then _ else j : Job).id = j.id
  split <;> rfl

/-- The change of state towards a state that is not an end. -/
theorem inv_alive {db : DB} (i : Inv db) {jid : Nat} {st : String} {o : Job} (ho : o ∈ db.jobs) (hid : o.id = jid) (hl : ¬ Ended o) (hne : st ≠ "Terminated" ∧ st ≠ "Error")
    (hw : st ∈ early → o.state ∈ early) : Inv { db with jobs := db.jobs.map (fun j => if j.id = jid then { j with state := st } else j) } := by
  have key : ∀ j ∈ db.jobs, ∃ j' ∈ db.jobs.map (fun j => if j.id = jid then { j with state := st } else j), j'.id = j.id ∧ j'.mold = j.mold ∧ (Ended j' ↔ Ended j) := by
    intro j hj
    refine ⟨_, List.mem_map.2 ⟨j, hj, rfl⟩, ?_⟩
    by_cases e : j.id = jid
    · rw [if_pos e]
      have := uniq i.jobs j hj o ho (e.trans hid.symm)
      subst this
      refine ⟨rfl, rfl, ?_⟩
      constructor
      · rintro (h | h)
        · exact absurd h hne.1
        · exact absurd h hne.2
      · intro h; exact absurd h hl
    · rw [if_neg e]; exact ⟨rfl, rfl, Iff.rfl⟩
  refine ⟨?_, i.molds, i.groups, i.zero, ?_, i.groupMold, i.descGroup, ?_, ?_, ?_, ?_⟩
  · show (List.map Job.id (List.map _ _)).Nodup
    rw [ids_state]; exact i.jobs
  · intro m h
    obtain ⟨j, h1, h2, h3⟩ := i.moldJob m h
    obtain ⟨j', k1, k2, k3, k4⟩ := key j h1
    exact ⟨j', k1, k2.trans h2, by rw [k4]; exact h3⟩
  · intro m h
    obtain ⟨j, h1, h2, h3⟩ := i.typeJob m h
    obtain ⟨j', k1, k2, k3, k4⟩ := key j h1
    exact ⟨j', k1, k2.trans h2, by rw [k4]; exact h3⟩
  · intro m h
    obtain ⟨j, h1, h2, h3⟩ := i.depJob m h
    obtain ⟨j', k1, k2, k3, k4⟩ := key j h1
    exact ⟨j', k1, k2.trans h2, by rw [k4]; exact h3⟩
  · intro j' h hz
    obtain ⟨j, hj, rfl⟩ := List.mem_map.1 h
    by_cases e : j.id = jid
    · rw [if_pos e] at hz ⊢
      have := uniq i.jobs j hj o ho (e.trans hid.symm)
      subst this
      obtain ⟨h1, h2⟩ := i.assigned j hj hz
      exact ⟨fun hst => h1 (hw hst), h2⟩
    · rw [if_neg e] at hz ⊢
      exact i.assigned j hj hz
  · intro a h
    rcases i.asgJob a h with h1 | ⟨j, h1, h2, h3, h4⟩
    · exact Or.inl h1
    · obtain ⟨j', k1, k2, k3, k4⟩ := key j h1
      exact Or.inr ⟨j', k1, k3.trans h2, by rw [k3]; exact h3, by rw [k4]; exact h4⟩

/-- The job found after the writing of its state. -/
theorem find_written {db : DB} (i : (db.jobs.map Job.id).Nodup) {jid : Nat} {st : String} {o : Job} (ho : o ∈ db.jobs) (hid : o.id = jid) :
    (db.jobs.map (fun j => if j.id = jid then { j with state := st } else j)).find? (fun j => j.id == jid) = some { o with state := st } := by
  have hmem : ({ o with state := st } : Job) ∈ db.jobs.map (fun j => if j.id = jid then { j with state := st } else j) :=
    List.mem_map.2 ⟨o, ho, by rw [if_pos hid]⟩
  cases hf : (db.jobs.map (fun j => if j.id = jid then { j with state := st } else j)).find? (fun j => j.id == jid) with
  | none =>
    have := List.find?_eq_none.1 hf _ hmem
    exact absurd (by simpa using hid) this
  | some x =>
    have h1 := List.mem_of_find?_eq_some hf
    have h2 : x.id = jid := by have := List.find?_some hf; simpa using this
    rw [uniq (f := Job.id) (by rw [ids_state]; exact i) x h1 _ hmem (h2.trans hid.symm)]

/-- The end of a job. -/
theorem inv_end {db : DB} (i : Inv db) {b : Base} (hb : b.sqlite = false) {jid : Nat} {st : String} {o : Job} (ho : o ∈ db.jobs) (hid : o.id = jid) (hl : ¬ Ended o)
    (he : st = "Terminated" ∨ st = "Error") :
    Inv (logJob b { db with jobs := db.jobs.map (fun j => if j.id = jid then { j with state := st } else j) } { o with state := st }) := by
  unfold logJob
  rw [if_neg (by rw [hb]; decide)]
  dsimp only
  -- the jobs after the change
  have kself : ({ o with state := st } : Job) ∈ db.jobs.map (fun j => if j.id = jid then { j with state := st } else j) :=
    List.mem_map.2 ⟨o, ho, by rw [if_pos hid]⟩
  have kend : Ended { o with state := st } := he
  have kother : ∀ j ∈ db.jobs, j.id ≠ jid → j ∈ db.jobs.map (fun j => if j.id = jid then { j with state := st } else j) := by
    intro j hj e
    exact List.mem_map.2 ⟨j, hj, by rw [if_neg e]⟩
  -- the moldables after the change
  have mold' : ∀ m ∈ db.molds, ∃ m' ∈ db.molds.map (fun m => if m.cur = true ∧ m.job = o.id then { m with cur := false } else m),
      m'.id = m.id ∧ m'.job = m.job ∧ (m.job = o.id → m'.cur = false) ∧ (m.job ≠ o.id → m'.cur = m.cur) := by
    intro m hm
    refine ⟨_, List.mem_map.2 ⟨m, hm, rfl⟩, ?_⟩
    by_cases c : m.cur = true ∧ m.job = o.id
    · rw [if_pos c]; exact ⟨rfl, rfl, fun _ => rfl, fun h => absurd c.2 h⟩
    · rw [if_neg c]
      refine ⟨rfl, rfl, ?_, fun _ => rfl⟩
      intro h
      cases hc : m.cur with
      | false => rfl
      | true => exact absurd ⟨hc, h⟩ c
  have mids : (db.molds.map (fun m => if m.cur = true ∧ m.job = o.id then { m with cur := false } else m)).map Mold.id = db.molds.map Mold.id := by
    rw [List.map_map]
    apply List.map_congr_left
    intro m _
    show (if _ then _ else m : Mold).id = m.id
    split <;> rfl
  -- the groups after the change
  have grp' : ∀ g ∈ db.groups, ∀ m ∈ db.molds, m.id = g.mold →
      ((db.molds.map (fun m => if m.cur = true ∧ m.job = o.id then { m with cur := false } else m)).any (fun m => m.id == g.mold && m.job == o.id && !m.cur) = true ↔ m.job = o.id) ∧
      ((db.molds.map (fun m => if m.cur = true ∧ m.job = o.id then { m with cur := false } else m)).any (fun m => m.id == g.mold && m.job == o.id) = true ↔ m.job = o.id) := by
    intro g _ m hm e
    obtain ⟨m', k1, k2, k3, k4, k5⟩ := mold' m hm
    have un : ∀ x ∈ db.molds.map (fun m => if m.cur = true ∧ m.job = o.id then { m with cur := false } else m), x.id = g.mold → x = m' := by
      intro x hx hxe
      exact uniq (f := Mold.id) (by rw [mids]; exact i.molds) x hx m' k1 (hxe.trans (k2.trans e).symm)
    constructor
    · rw [List.any_eq_true]
      constructor
      · rintro ⟨x, hx, hc⟩
        simp only [Bool.and_eq_true, beq_iff_eq] at hc
        rw [un x hx hc.1.1, k3] at hc
        exact hc.1.2
      · intro h
        exact ⟨m', k1, by simp [k2, e, k3, h, k4 h]⟩
    · rw [List.any_eq_true]
      constructor
      · rintro ⟨x, hx, hc⟩
        simp only [Bool.and_eq_true, beq_iff_eq] at hc
        rw [un x hx hc.1, k3] at hc
        exact hc.2
      · intro h
        exact ⟨m', k1, by simp [k2, e, k3, h]⟩
  refine ⟨?_, ?_, ?_, ?_, ?_, ?_, ?_, ?_, ?_, ?_, ?_⟩
  · show (List.map Job.id (List.map _ _)).Nodup
    rw [ids_state]; exact i.jobs
  · show (List.map Mold.id (List.map _ _)).Nodup
    rw [mids]; exact i.molds
  · show (List.map Group.id (List.map _ _)).Nodup
    rw [List.map_map, List.map_congr_left (g := Group.id)]
    · exact i.groups
    · intro g _
      show (if _ then _ else g : Group).id = g.id
      split <;> rfl
  · intro m' h
    obtain ⟨m, hm, rfl⟩ := List.mem_map.1 h
    split
    · exact i.zero m hm
    · exact i.zero m hm
  · intro m' h
    obtain ⟨m, hm, rfl⟩ := List.mem_map.1 h
    obtain ⟨j, h1, h2, h3⟩ := i.moldJob m hm
    by_cases e : m.job = o.id
    · have := uniq i.jobs j h1 o ho (h2.trans e)
      subst this
      refine ⟨_, kself, ?_, ?_⟩
      · split <;> exact e.symm
      · have : (if m.cur = true ∧ m.job = j.id then { m with cur := false } else m : Mold).cur = false := by
          split
          · rfl
          · rename_i c
            cases hc : m.cur with
            | false => rfl
            | true => exact absurd ⟨hc, e⟩ c
        rw [this]
        simp [kend]
    · rw [if_neg (show ¬ (m.cur = true ∧ m.job = o.id) from fun c => e c.2)]
      refine ⟨j, kother j h1 ?_, h2, h3⟩
      intro h
      exact e (by rw [← h2, h, hid])
  · intro g' h
    obtain ⟨g, hg, rfl⟩ := List.mem_map.1 h
    obtain ⟨m, h1, h2, h3⟩ := i.groupMold g hg
    obtain ⟨m', k1, k2, k3, k4, k5⟩ := mold' m h1
    refine ⟨m', k1, ?_, ?_⟩
    · split <;> exact k2.trans h2
    · by_cases e : m.job = o.id
      · rw [k4 e]
        split
        · rfl
        · rename_i c
          cases hc : g.cur with
          | false => rfl
          | true => exact absurd ⟨hc, (grp' g hg m h1 h2).1.2 e⟩ c
      · rw [k5 e, if_neg]
        · exact h3
        · rintro ⟨_, c⟩; exact e ((grp' g hg m h1 h2).1.1 c)
  · intro d' h
    obtain ⟨d, hd, rfl⟩ := List.mem_map.1 h
    obtain ⟨g, g1, g2, g3⟩ := i.descGroup d hd
    obtain ⟨m, h1, h2, h3⟩ := i.groupMold g g1
    refine ⟨_, List.mem_map.2 ⟨g, g1, rfl⟩, ?_, ?_⟩
    · split <;> split <;> exact g2
    · have ca : (db.groups.any (fun g => g.id == d.group &&
          (db.molds.map (fun m => if m.cur = true ∧ m.job = o.id then { m with cur := false } else m)).any (fun m => m.id == g.mold && m.job == o.id)) = true) ↔ m.job = o.id := by
        rw [List.any_eq_true]
        constructor
        · rintro ⟨x, hx, hc⟩
          rw [Bool.and_eq_true, beq_iff_eq] at hc
          have := uniq i.groups x hx g g1 (hc.1.trans g2.symm)
          subst this
          exact (grp' x hx m h1 h2).2.1 hc.2
        · intro e
          refine ⟨g, g1, ?_⟩
          rw [Bool.and_eq_true, beq_iff_eq]
          exact ⟨g2, (grp' g g1 m h1 h2).2.2 e⟩
      by_cases e : m.job = o.id
      · rw [if_pos (ca.2 e)]
        split
        · rfl
        · rename_i c
          cases hc : g.cur with
          | false => rfl
          | true => exact absurd ⟨hc, (grp' g g1 m h1 h2).1.2 e⟩ c
      · rw [if_neg (fun c => e (ca.1 c)), if_neg]
        · exact g3
        · rintro ⟨_, c⟩; exact e ((grp' g g1 m h1 h2).1.1 c)
  · intro m' h
    obtain ⟨m, hm, rfl⟩ := List.mem_map.1 h
    obtain ⟨j, h1, h2, h3⟩ := i.typeJob m hm
    by_cases e : m.job = o.id
    · have := uniq i.jobs j h1 o ho (h2.trans e)
      subst this
      refine ⟨_, kself, ?_, ?_⟩
      · split <;> exact e.symm
      · have : (if m.cur = true ∧ m.job = j.id then { m with cur := false } else m : Typ).cur = false := by
          split
          · rfl
          · rename_i c
            cases hc : m.cur with
            | false => rfl
            | true => exact absurd ⟨hc, e⟩ c
        rw [this]
        simp [kend]
    · rw [if_neg (show ¬ (m.cur = true ∧ m.job = o.id) from fun c => e c.2)]
      refine ⟨j, kother j h1 ?_, h2, h3⟩
      intro h
      exact e (by rw [← h2, h, hid])
  · intro m' h
    obtain ⟨m, hm, rfl⟩ := List.mem_map.1 h
    obtain ⟨j, h1, h2, h3⟩ := i.depJob m hm
    by_cases e : m.job = o.id
    · have := uniq i.jobs j h1 o ho (h2.trans e)
      subst this
      refine ⟨_, kself, ?_, ?_⟩
      · split <;> exact e.symm
      · have : (if m.cur = true ∧ m.job = j.id then { m with cur := false } else m : Dep).cur = false := by
          split
          · rfl
          · rename_i c
            cases hc : m.cur with
            | false => rfl
            | true => exact absurd ⟨hc, e⟩ c
        rw [this]
        simp [kend]
    · rw [if_neg (show ¬ (m.cur = true ∧ m.job = o.id) from fun c => e c.2)]
      refine ⟨j, kother j h1 ?_, h2, h3⟩
      intro h
      exact e (by rw [← h2, h, hid])
  · intro j' h hz
    obtain ⟨j, hj, rfl⟩ := List.mem_map.1 h
    have hz' : j.mold ≠ 0 := by
      revert hz; split <;> exact id
    obtain ⟨h1, m, h2, h3, h4⟩ := i.assigned j hj hz'
    obtain ⟨m', k1, k2, k3, _⟩ := mold' m h2
    refine ⟨?_, m', k1, ?_, ?_⟩
    · split
      · intro hh
        have hh' : st ∈ early := hh
        rcases he with e | e <;> rw [e] at hh' <;> exact absurd hh' (by decide)
      · exact h1
    · rw [k2, h3]; split <;> rfl
    · rw [k3, h4]; split <;> rfl
  · intro a' h
    -- the row before
    have hx : ∃ a ∈ db.asg, a'.mold = a.mold ∧ a'.rid = a.rid ∧ (a'.cur = true → a.cur = true) ∧ (o.mold ≠ 0 → a.mold = o.mold → a'.cur = false) := by
      by_cases hz : o.mold ≠ 0
      · rw [if_pos hz] at h
        obtain ⟨a, ha, rfl⟩ := List.mem_map.1 h
        refine ⟨a, ha, ?_⟩
        by_cases c : a.cur = true ∧ a.mold = o.mold
        · rw [if_pos c]; exact ⟨rfl, rfl, by simp, fun _ _ => rfl⟩
        · rw [if_neg c]
          refine ⟨rfl, rfl, id, ?_⟩
          intro _ e
          cases hc : a.cur with
          | false => rfl
          | true => exact absurd ⟨hc, e⟩ c
      · rw [if_neg hz] at h
        exact ⟨a', h, rfl, rfl, id, fun hh => absurd hh hz⟩
    obtain ⟨a, ha, e1, e2, e3, e4⟩ := hx
    rcases i.asgJob a ha with h1 | ⟨j, h1, h2, h3, h4⟩
    · left; rw [e1, e2]; exact h1
    · right
      by_cases e : j.id = jid
      · have := uniq i.jobs j h1 o ho (e.trans hid.symm)
        subst this
        refine ⟨_, kself, h2.trans e1.symm, h3, ?_⟩
        rw [e4 h3 h2.symm]
        simp
      · exact ⟨j, kother j h1 e, h2.trans e1.symm, h3, fun h => h4 (e3 h)⟩

theorem inv_state {db : DB} (i : Inv db) {b : Base} (hb : b.sqlite = false) (jid : Nat) (st : String) (h : st ∈ early → ∀ j ∈ db.jobs, j.id = jid → j.state ∈ early) :
    Inv (setState b db jid st) := by
  unfold setState
  cases hw : writeState db jid st with
  | none => exact i
  | some db1 =>
    obtain ⟨rfl, o, ho, hid, hl, hne⟩ := writeState_some hw
    dsimp only
    by_cases he : st = "Terminated" ∨ st = "Error"
    · rw [if_pos he, find_written i.jobs ho hid]
      exact inv_end i hb ho hid (leavable_not_ended hl) he
    · rw [if_neg he]
      exact inv_alive i ho hid (leavable_not_ended hl) ⟨fun e => he (Or.inl e), fun e => he (Or.inr e)⟩ (fun hst => h hst o ho hid)

/-- What the insertion of the assigned resources does. -/
theorem addPairs_some {db db1 : DB} {mold : Nat} (h : addPairs db mold = some db1) :
    db1 = { db with asg := db.asg ++ (pairRows db mold).map (fun p => { mold := p.1, rid := p.2 }) } ∧
      ∀ p ∈ pairRows db mold, ∀ a ∈ db.asg, ¬ (a.mold = p.1 ∧ a.rid = p.2) := by
  unfold addPairs at h
  split at h
  · cases h
  · rename_i hc
    refine ⟨(Option.some.inj h).symm, ?_⟩
    intro p hp a ha e
    exact hc (List.any_eq_true.2 ⟨p, hp, List.any_eq_true.2 ⟨a, ha, by simp [e.1, e.2]⟩⟩)

/-- The rows inserted: those of the prediction, or one row of zeros. -/
theorem pairRows_cases (db : DB) (mold : Nat) :
    (db.gantt.filter (fun g => g.1 == mold) = [] ∧ pairRows db mold = [(0, 0)]) ∨
    (db.gantt.filter (fun g => g.1 == mold) ≠ [] ∧ pairRows db mold = db.gantt.filter (fun g => g.1 == mold)) := by
  unfold pairRows
  cases h : db.gantt.filter (fun g => g.1 == mold) with
  | nil => exact Or.inl ⟨rfl, rfl⟩
  | cons x xs => exact Or.inr ⟨by simp, rfl⟩

theorem inv_launch {db db' : DB} (i : Inv db) {b : Base} {j : Job} {m : Mold} (hj : j ∈ db.jobs) (hw : j.state = "Waiting") (hm : m ∈ db.molds)
    (hmj : m.job = j.id) (h : prepare b db j.id m.id = some db') : Inv db' := by
  unfold prepare at h
  cases ha : addPairs (setMold db j.id m.id) m.id with
  | none => rw [ha] at h; cases h
  | some db1 =>
    rw [ha] at h
    obtain ⟨rfl, _⟩ := addPairs_some ha
    have hnew := pairRows_cases (setMold db j.id m.id) m.id
    generalize pairRows (setMold db j.id m.id) m.id = new at hnew h
    rw [← Option.some.inj h]
    -- the job before, changed
    have hz : j.mold = 0 := by
      apply Classical.byContradiction
      intro hz
      exact (i.assigned j hj hz).1 (by rw [hw]; decide)
    have hne : ¬ Ended j := early_not_ended (by rw [hw]; decide)
    have hW : writeState { setMold db j.id m.id with asg := (setMold db j.id m.id).asg ++ new.map (fun p => { mold := p.1, rid := p.2 }) } j.id "toLaunch" =
        some { db with
          jobs := db.jobs.map (fun x => if x.id = j.id then { x with state := "toLaunch", mold := m.id } else x)
          asg := db.asg ++ new.map (fun p => { mold := p.1, rid := p.2 }) } := by
      unfold writeState setMold
      rw [if_pos]
      · congr 1
        simp only [List.map_map, DB.mk.injEq, and_self, and_true]
        apply List.map_congr_left
        intro x _
        show (if (if x.id = j.id then _ else x : Job).id = j.id then _ else _ : Job) = _
        by_cases e : x.id = j.id
        · simp [e]
        · simp [e]
      · rw [List.any_eq_true]
        refine ⟨{ j with mold := m.id }, List.mem_map.2 ⟨j, hj, by rw [if_pos rfl]⟩, ?_⟩
        simp [hw, leavable]
    unfold setState
    rw [hW]
    dsimp only
    rw [if_neg (by decide)]
    have kself : ({ j with state := "toLaunch", mold := m.id } : Job) ∈ db.jobs.map (fun x => if x.id = j.id then { x with state := "toLaunch", mold := m.id } else x) :=
      List.mem_map.2 ⟨j, hj, by rw [if_pos rfl]⟩
    have kalive : ¬ Ended { j with state := "toLaunch", mold := m.id } := by
      rintro (e | e)
      · exact absurd (show "toLaunch" = "Terminated" from e) (by decide)
      · exact absurd (show "toLaunch" = "Error" from e) (by decide)
    have key : ∀ x ∈ db.jobs, ∃ x' ∈ db.jobs.map (fun x => if x.id = j.id then { x with state := "toLaunch", mold := m.id } else x), x'.id = x.id ∧ (Ended x' ↔ Ended x) := by
      intro x hx
      refine ⟨_, List.mem_map.2 ⟨x, hx, rfl⟩, ?_⟩
      by_cases e : x.id = j.id
      · rw [if_pos e]
        have := uniq i.jobs x hx j hj e
        subst this
        exact ⟨rfl, ⟨fun h => absurd h kalive, fun h => absurd h hne⟩⟩
      · rw [if_neg e]; exact ⟨rfl, Iff.rfl⟩
    refine ⟨?_, i.molds, i.groups, i.zero, ?_, i.groupMold, i.descGroup, ?_, ?_, ?_, ?_⟩
    · show (List.map Job.id (List.map _ _)).Nodup
      rw [List.map_map, List.map_congr_left (g := Job.id)]
      · exact i.jobs
      · intro x _
        show (if _ then _ else x : Job).id = x.id
        split <;> rfl
    · intro x h
      obtain ⟨y, h1, h2, h3⟩ := i.moldJob x h
      obtain ⟨y', k1, k2, k3⟩ := key y h1
      exact ⟨y', k1, k2.trans h2, by rw [k3]; exact h3⟩
    · intro x h
      obtain ⟨y, h1, h2, h3⟩ := i.typeJob x h
      obtain ⟨y', k1, k2, k3⟩ := key y h1
      exact ⟨y', k1, k2.trans h2, by rw [k3]; exact h3⟩
    · intro x h
      obtain ⟨y, h1, h2, h3⟩ := i.depJob x h
      obtain ⟨y', k1, k2, k3⟩ := key y h1
      exact ⟨y', k1, k2.trans h2, by rw [k3]; exact h3⟩
    · intro x' h hz'
      obtain ⟨x, hx, rfl⟩ := List.mem_map.1 h
      by_cases e : x.id = j.id
      · rw [if_pos e]
        exact ⟨by show "toLaunch" ∉ early; decide, m, hm, rfl, hmj.trans e.symm⟩
      · rw [if_neg e] at hz' ⊢
        exact i.assigned x hx hz'
    · intro a h
      rcases List.mem_append.1 h with h | h
      · rcases i.asgJob a h with h1 | ⟨y, h1, h2, h3, h4⟩
        · exact Or.inl h1
        · have e : y.id ≠ j.id := by
            intro e
            have := uniq i.jobs y h1 j hj e
            subst this
            exact h3 hz
          exact Or.inr ⟨y, List.mem_map.2 ⟨y, h1, by rw [if_neg e]⟩, h2, h3, h4⟩
      · obtain ⟨p, hp, rfl⟩ := List.mem_map.1 h
        rcases hnew with ⟨_, rfl⟩ | ⟨_, rfl⟩
        · rw [List.mem_singleton.1 hp]; exact Or.inl ⟨rfl, rfl⟩
        · have : p.1 = m.id := by simpa using (List.mem_filter.1 hp).2
          exact Or.inr ⟨_, kself, this.symm, i.zero m hm, fun _ => kalive⟩

theorem inv_history {b : Base} (hb : b.sqlite = false) {db : DB} (h : History b db) : Inv db := by
  induction h with
  | start =>
    refine ⟨List.nodup_nil, List.nodup_nil, List.nodup_nil, ?_, ?_, ?_, ?_, ?_, ?_, ?_, ?_⟩ <;> intro x hx <;> cases hx
  | step d d' _ hs ih =>
    cases hs with
    | submit jid state molds groups descs types deps h1 h2 h3 h4 h5 h6 h7 h8 h9 => exact inv_submit ih h1 h2 h3 h4 h5 h6 h7 h8 h9
    | state jid st h => exact inv_state ih hb jid st h
    | launch j m _ hj hw hm hmj h => exact inv_launch ih hj hw hm hmj h
    | nodes mold hosts => exact inv_nodes ih b mold hosts
    | schedule g => exact ⟨ih.jobs, ih.molds, ih.groups, ih.zero, ih.moldJob, ih.groupMold, ih.descGroup, ih.typeJob, ih.depJob, ih.assigned, ih.asgJob⟩
    | resources r => exact ⟨ih.jobs, ih.molds, ih.groups, ih.zero, ih.moldJob, ih.groupMold, ih.descGroup, ih.typeJob, ih.depJob, ih.assigned, ih.asgJob⟩

/-! ## The queries -/

theorem mem_insertHost {h x : String} : ∀ {l : List String}, x ∈ insertHost h l ↔ x = h ∨ x ∈ l
  | [] => by simp [insertHost]
  | y :: ys => by
    unfold insertHost
    split
    · rename_i e; simp [e]
    · split
      · simp
      · rw [List.mem_cons, mem_insertHost, List.mem_cons]
        constructor
        · rintro (a | a | a)
          · exact Or.inr (Or.inl a)
          · exact Or.inl a
          · exact Or.inr (Or.inr a)
        · rintro (a | a | a)
          · exact Or.inr (Or.inl a)
          · exact Or.inl a
          · exact Or.inr (Or.inr a)

theorem sorted_insertHost {h : String} : ∀ {l : List String}, l.Pairwise (· < ·) → (insertHost h l).Pairwise (· < ·)
  | [], _ => by simp [insertHost]
  | y :: ys, hl => by
    unfold insertHost
    split
    · exact hl
    · rename_i hne
      split
      · rename_i hlt
        refine List.pairwise_cons.2 ⟨?_, hl⟩
        intro z hz
        rcases List.mem_cons.1 hz with rfl | hz
        · exact hlt
        · exact String.lt_trans hlt ((List.pairwise_cons.1 hl).1 z hz)
      · rename_i hge
        have hgt : y < h := by
          apply Classical.byContradiction
          intro hn
          exact hne (String.le_antisymm (String.not_lt.1 hn) (String.not_lt.1 hge))
        refine List.pairwise_cons.2 ⟨?_, sorted_insertHost (List.pairwise_cons.1 hl).2⟩
        intro z hz
        rcases mem_insertHost.1 hz with rfl | hz
        · exact hgt
        · exact (List.pairwise_cons.1 hl).1 z hz

theorem foldl_insertHost (l : List String) : ∀ acc : List String, acc.Pairwise (· < ·) →
    (l.foldl (fun acc h => insertHost h acc) acc).Pairwise (· < ·) ∧ ∀ x, x ∈ l.foldl (fun acc h => insertHost h acc) acc ↔ x ∈ l ∨ x ∈ acc := by
  induction l with
  | nil => intro acc h; exact ⟨h, by simp⟩
  | cons y ys ih =>
    intro acc h
    obtain ⟨h1, h2⟩ := ih (insertHost y acc) (sorted_insertHost h)
    refine ⟨h1, ?_⟩
    intro x
    rw [List.foldl_cons, h2, mem_insertHost, List.mem_cons]
    constructor
    · rintro (a | a | a)
      · exact Or.inl (Or.inr a)
      · exact Or.inl (Or.inl a)
      · exact Or.inr a
    · rintro ((a | a) | a)
      · exact Or.inr (Or.inl a)
      · exact Or.inl a
      · exact Or.inr (Or.inr a)

/-- The list of the hosts of a job: in order, without double. -/
theorem hostnames_spec (db : DB) (jid : Nat) : (hostnames db jid).Pairwise (· < ·) ∧ ∀ h, h ∈ hostnames db jid ↔
    ∃ a ∈ db.asg, a.cur = true ∧ (∃ m ∈ db.molds, m.cur = true ∧ m.id = a.mold ∧ m.job = jid) ∧
      ∃ r ∈ db.res, r.id = a.rid ∧ r.host = h ∧ r.host ≠ "" ∧ r.type = "default" := by
  unfold hostnames
  obtain ⟨h1, h2⟩ := foldl_insertHost (hostRows db jid) [] List.Pairwise.nil
  refine ⟨h1, ?_⟩
  intro h
  rw [h2]
  unfold hostRows
  simp only [List.not_mem_nil, or_false, List.mem_flatMap]
  constructor
  · rintro ⟨a, ha, hx⟩
    split at hx
    · rename_i hc
      obtain ⟨r, hr, e⟩ := List.mem_map.1 hx
      obtain ⟨m, hm, hm'⟩ := List.any_eq_true.1 hc.2
      simp only [List.mem_filter, Bool.and_eq_true, beq_iff_eq, bne_iff_ne] at hr hm'
      exact ⟨a, ha, hc.1, ⟨m, hm, hm'.1.1, hm'.1.2, hm'.2⟩, r, hr.1, hr.2.1.1, e, hr.2.1.2, hr.2.2⟩
    · cases hx
  · rintro ⟨a, ha, hc, ⟨m, hm, m1, m2, m3⟩, r, hr, r1, r2, r3, r4⟩
    refine ⟨a, ha, ?_⟩
    rw [if_pos ⟨hc, List.any_eq_true.2 ⟨m, hm, by simp [m1, m2, m3]⟩⟩]
    exact List.mem_map.2 ⟨r, List.mem_filter.2 ⟨hr, by simp [r1, r3, r4]⟩, r2⟩

theorem mem_currentResources {db : DB} {mold i : Nat} : i ∈ currentResources db mold ↔
    (∃ a ∈ db.asg, a.cur = true ∧ a.mold = mold ∧ a.rid = i) ∧ ∃ r ∈ db.res, r.id = i := by
  unfold currentResources
  simp only [List.mem_flatMap, List.mem_filter, List.mem_map, Bool.and_eq_true, beq_iff_eq]
  constructor
  · rintro ⟨a, ⟨h1, h2, h3⟩, r, ⟨h4, h5⟩, h6⟩
    exact ⟨⟨a, h1, h2, h3, by omega⟩, r, h4, h6⟩
  · rintro ⟨⟨a, h1, h2, h3, h4⟩, r, h5, h6⟩
    exact ⟨a, ⟨h1, h2, h3⟩, r, ⟨h5, by omega⟩, h6⟩

/-- **C107, the end of a job.** With a database that archives, whatever happened before, no row of a job that is over is CURRENT: neither its moldables, its groups and
descriptions of resources, its types, its dependencies, nor its resources; it has no host any more, and the current moldable it ran with cannot be found. -/
theorem ended_archived {b : Base} (hb : b.sqlite = false) {db : DB} (h : History b db) {j : Job} (hj : j ∈ db.jobs) (he : Ended j) :
    (∀ m ∈ db.molds, m.job = j.id → m.cur = false ∧ currentMold db m.id = none ∧ (∀ a ∈ db.asg, a.mold = m.id → a.cur = false) ∧
      ∀ g ∈ db.groups, g.mold = m.id → g.cur = false ∧ ∀ d ∈ db.descs, d.group = g.id → d.cur = false) ∧
    (∀ t ∈ db.types, t.job = j.id → t.cur = false) ∧ (∀ d ∈ db.deps, d.job = j.id → d.cur = false) ∧
    hostnames db j.id = [] ∧ (j.mold ≠ 0 → currentResources db j.mold = []) ∧ dependencies db j.id = [] := by
  have i := inv_history hb h
  have hm : ∀ m ∈ db.molds, m.job = j.id → m.cur = false := by
    intro m hm e
    obtain ⟨j', h1, h2, h3⟩ := i.moldJob m hm
    have := uniq i.jobs j' h1 j hj (h2.trans e)
    subst this
    cases hc : m.cur with
    | false => rfl
    | true => exact absurd he (h3.1 hc)
  have ha : ∀ m ∈ db.molds, m.job = j.id → ∀ a ∈ db.asg, a.mold = m.id → a.cur = false := by
    intro m hm e a ha e'
    rcases i.asgJob a ha with ⟨h1, _⟩ | ⟨j', h1, h2, h3, h4⟩
    · exact absurd (e'.symm.trans h1) (i.zero m hm)
    · obtain ⟨_, m', k1, k2, k3⟩ := i.assigned j' h1 h3
      have := uniq i.molds m' k1 m hm (k2.trans (h2.trans e'))
      subst this
      have := uniq i.jobs j' h1 j hj (k3.symm.trans e)
      subst this
      cases hc : a.cur with
      | false => rfl
      | true => exact absurd he (h4 hc)
  have hd : ∀ d ∈ db.deps, d.job = j.id → d.cur = false := by
    intro m hm e
    obtain ⟨j', h1, h2, h3⟩ := i.depJob m hm
    have := uniq i.jobs j' h1 j hj (h2.trans e)
    subst this
    cases hc : m.cur with
    | false => rfl
    | true => exact absurd he (h3.1 hc)
  refine ⟨?_, ?_, hd, ?_, ?_, ?_⟩
  · intro m hm1 e
    refine ⟨hm m hm1 e, ?_, ha m hm1 e, ?_⟩
    · unfold currentMold
      have : db.molds.filter (fun x => x.cur && x.id == m.id) = [] := by
        rw [List.filter_eq_nil_iff]
        intro x hx hc
        simp only [Bool.and_eq_true, beq_iff_eq] at hc
        have := uniq i.molds x hx m hm1 hc.2
        subst this
        rw [hm x hx e] at hc
        exact absurd hc.1 (by decide)
      rw [this]
    · intro g hg eg
      obtain ⟨m', k1, k2, k3⟩ := i.groupMold g hg
      have := uniq i.molds m' k1 m hm1 (k2.trans eg)
      subst this
      have hgc : g.cur = false := k3.trans (hm m' k1 e)
      refine ⟨hgc, ?_⟩
      intro d hd ed
      obtain ⟨g', q1, q2, q3⟩ := i.descGroup d hd
      have := uniq i.groups g' q1 g hg (q2.trans ed)
      subst this
      exact q3.trans hgc
  · intro m hm e
    obtain ⟨j', h1, h2, h3⟩ := i.typeJob m hm
    have := uniq i.jobs j' h1 j hj (h2.trans e)
    subst this
    cases hc : m.cur with
    | false => rfl
    | true => exact absurd he (h3.1 hc)
  · rw [List.eq_nil_iff_forall_not_mem]
    intro x hx
    obtain ⟨a, h1, h2, ⟨m, m1, m2, m3, m4⟩, _⟩ := ((hostnames_spec db j.id).2 x).1 hx
    rw [hm m m1 m4] at m2
    cases m2
  · intro hz
    rw [List.eq_nil_iff_forall_not_mem]
    intro x hx
    obtain ⟨⟨a, h1, h2, h3, _⟩, _⟩ := mem_currentResources.1 hx
    obtain ⟨_, m, k1, k2, k3⟩ := i.assigned j hj hz
    rw [ha m k1 k3 a h1 (h3.trans k2.symm)] at h2
    cases h2
  · unfold dependencies
    have : db.deps.filter (fun d => d.cur && d.job == j.id) = [] := by
      rw [List.filter_eq_nil_iff]
      intro d hd1 hc
      simp only [Bool.and_eq_true, beq_iff_eq] at hc
      rw [hd d hd1 hc.2] at hc
      exact absurd hc.1 (by decide)
    rw [this]; rfl

/-- **C107, a job that is not over keeps its rows**: its moldables, groups, descriptions, types and dependencies are CURRENT, even when the jobs it depends on are over; its
hosts are those of its current resources, in order and without double. -/
theorem live_current {b : Base} (hb : b.sqlite = false) {db : DB} (h : History b db) {j : Job} (hj : j ∈ db.jobs) (he : ¬ Ended j) :
    (∀ m ∈ db.molds, m.job = j.id → m.cur = true ∧ currentMold db m.id = some m ∧
      ∀ g ∈ db.groups, g.mold = m.id → g.cur = true ∧ ∀ d ∈ db.descs, d.group = g.id → d.cur = true) ∧
    (∀ t ∈ db.types, t.job = j.id → t.cur = true) ∧ (∀ d ∈ db.deps, d.job = j.id → d.cur = true) ∧
    (∀ k s, (k, s) ∈ dependencies db j.id ↔ (∃ d ∈ db.deps, d.job = j.id ∧ d.required = k) ∧ ∃ r ∈ db.jobs, r.id = k ∧ r.state = s) ∧
    (hostnames db j.id).Pairwise (· < ·) ∧
    ∀ n, n ∈ hostnames db j.id ↔ n ≠ "" ∧ j.mold ≠ 0 ∧ ∃ r ∈ db.res, r.id ∈ currentResources db j.mold ∧ r.host = n ∧ r.type = "default" := by
  have i := inv_history hb h
  have hm : ∀ m ∈ db.molds, m.job = j.id → m.cur = true := by
    intro m hm e
    obtain ⟨j', h1, h2, h3⟩ := i.moldJob m hm
    have := uniq i.jobs j' h1 j hj (h2.trans e)
    subst this
    exact h3.2 he
  have hd : ∀ d ∈ db.deps, d.job = j.id → d.cur = true := by
    intro m hm e
    obtain ⟨j', h1, h2, h3⟩ := i.depJob m hm
    have := uniq i.jobs j' h1 j hj (h2.trans e)
    subst this
    exact h3.2 he
  refine ⟨?_, ?_, hd, ?_, (hostnames_spec db j.id).1, ?_⟩
  · intro m hm1 e
    refine ⟨hm m hm1 e, ?_, ?_⟩
    · unfold currentMold
      have hf : ∀ l : List Mold, (l.map Mold.id).Nodup → m ∈ l → l.filter (fun x => x.cur && x.id == m.id) = [m] := by
        intro l
        induction l with
        | nil => intro _ h; cases h
        | cons x xs ih =>
          intro hn hmem
          rw [List.map_cons, List.nodup_cons] at hn
          by_cases ex : x.id = m.id
          · have hx : x = m := uniq (l := x :: xs) (f := Mold.id) (by rw [List.map_cons, List.nodup_cons]; exact hn) x List.mem_cons_self m hmem ex
            rw [hx, List.filter_cons, if_pos (by simp [hm m hm1 e])]
            congr 1
            rw [List.filter_eq_nil_iff]
            intro y hy hc
            simp only [Bool.and_eq_true, beq_iff_eq] at hc
            exact hn.1 (List.mem_map.2 ⟨y, hy, hc.2.trans ex.symm⟩)
          · rw [List.filter_cons, if_neg (by simp [ex])]
            rcases List.mem_cons.1 hmem with e' | hmem
            · exact absurd (by rw [e']) ex
            · exact ih hn.2 hmem
      rw [hf db.molds i.molds hm1]
    · intro g hg eg
      obtain ⟨m', k1, k2, k3⟩ := i.groupMold g hg
      have := uniq i.molds m' k1 m hm1 (k2.trans eg)
      subst this
      have hgc : g.cur = true := k3.trans (hm m' k1 e)
      refine ⟨hgc, ?_⟩
      intro d hd ed
      obtain ⟨g', q1, q2, q3⟩ := i.descGroup d hd
      have := uniq i.groups g' q1 g hg (q2.trans ed)
      subst this
      exact q3.trans hgc
  · intro m hm e
    obtain ⟨j', h1, h2, h3⟩ := i.typeJob m hm
    have := uniq i.jobs j' h1 j hj (h2.trans e)
    subst this
    exact h3.2 he
  · intro k s
    unfold dependencies
    simp only [List.mem_flatMap, List.mem_filter, List.mem_map, Bool.and_eq_true, beq_iff_eq, Prod.mk.injEq]
    constructor
    · rintro ⟨d, ⟨d1, d2, d3⟩, r, ⟨r1, r2⟩, e1, e2⟩
      exact ⟨⟨d, d1, d3, e1⟩, r, r1, r2.trans e1, e2⟩
    · rintro ⟨⟨d, d1, d2, d3⟩, r, r1, r2, r3⟩
      exact ⟨d, ⟨d1, hd d d1 d2, d2⟩, r, ⟨r1, r2.trans d3.symm⟩, d3, r3⟩
  · intro n
    rw [(hostnames_spec db j.id).2]
    constructor
    · rintro ⟨a, a1, a2, ⟨m, m1, m2, m3, m4⟩, r, r1, r2, r3, r4, r5⟩
      rcases i.asgJob a a1 with ⟨h1, _⟩ | ⟨j', h1, h2, h3, h4⟩
      · exact absurd (m3.trans h1) (i.zero m m1)
      · obtain ⟨_, m', k1, k2, k3⟩ := i.assigned j' h1 h3
        have := uniq i.molds m' k1 m m1 (k2.trans (h2.trans m3.symm))
        subst this
        have := uniq i.jobs j' h1 j hj (k3.symm.trans m4)
        subst this
        exact ⟨by rw [← r3]; exact r4, h3, r, r1, mem_currentResources.2 ⟨⟨a, a1, a2, h2.symm, r2.symm⟩, r, r1, rfl⟩, r3, r5⟩
    · rintro ⟨hn, hz, r, r1, r2, r3, r4⟩
      obtain ⟨⟨a, a1, a2, a3, a4⟩, _⟩ := mem_currentResources.1 r2
      obtain ⟨_, m, k1, k2, k3⟩ := i.assigned j hj hz
      exact ⟨a, a1, a2, ⟨m, k1, hm m k1 k3, k2.trans a3.symm, k3⟩, r, r1, a4.symm, r3, by rw [r3]; exact hn, r4⟩

/-- **C107, the occupied nodes** are exactly the nodes of the current resources of the jobs that are not over. -/
theorem occupied_exact {b : Base} (hb : b.sqlite = false) {db : DB} (h : History b db) (h0 : ∀ r ∈ db.res, r.id ≠ 0) (n : String) :
    n ∈ assignedNodes db ↔ ∃ j ∈ db.jobs, ¬ Ended j ∧ j.mold ≠ 0 ∧ ∃ r ∈ db.res, r.id ∈ currentResources db j.mold ∧ r.type = "default" ∧ r.host = n := by
  have i := inv_history hb h
  unfold assignedNodes
  simp only [List.mem_flatMap, List.mem_filter, List.mem_map, Bool.and_eq_true, beq_iff_eq]
  constructor
  · rintro ⟨a, ⟨a1, a2⟩, r, ⟨r1, r2, r3⟩, r4⟩
    rcases i.asgJob a a1 with ⟨_, h1⟩ | ⟨j, h1, h2, h3, h4⟩
    · exact absurd (r2.trans h1) (h0 r r1)
    · exact ⟨j, h1, h4 a2, h3, r, r1, mem_currentResources.2 ⟨⟨a, a1, a2, h2.symm, r2.symm⟩, r, r1, rfl⟩, r3, r4⟩
  · rintro ⟨j, h1, h2, h3, r, r1, r2, r3, r4⟩
    obtain ⟨⟨a, a1, a2, a3, a4⟩, _⟩ := mem_currentResources.1 r2
    exact ⟨a, ⟨a1, a2⟩, r, ⟨r1, a4.symm, r3⟩, r4⟩

/-- So finaud, when it skips the occupied nodes, tests every node that no unfinished job uses. -/
theorem free_checked {b : Base} (hb : b.sqlite = false) {db : DB} (h : History b db) (h0 : ∀ r ∈ db.res, r.id ≠ 0) (nodes : List String) (n : String) :
    n ∈ toCheck db nodes ↔ n ∈ nodes ∧ ∀ j ∈ db.jobs, ¬ Ended j → j.mold ≠ 0 → ∀ r ∈ db.res, r.id ∈ currentResources db j.mold → r.type = "default" → r.host ≠ n := by
  unfold toCheck
  rw [List.mem_filter, decide_eq_true_eq, occupied_exact hb h h0]
  constructor
  · rintro ⟨h1, h2⟩
    exact ⟨h1, fun j hj he hz r hr hc ht e => h2 ⟨j, hj, he, hz, r, hr, hc, ht, e⟩⟩
  · rintro ⟨h1, h2⟩
    exact ⟨h1, fun ⟨j, hj, he, hz, r, hr, hc, ht, e⟩ => h2 j hj he hz r hr hc ht e⟩

end Oar.Archive
