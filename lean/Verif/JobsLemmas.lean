import Verif.JobsSpec

/-! # Lemmas on the histories of jobs -/

namespace Oar.Jobs

/-- The columns of a job followed along a history. -/
def JobRow.key (j : JobRow) : Nat × String × Nat := (j.id, j.state, j.resubmit)

/-- The job has been executed or given up. -/
def Done (st : String) : Prop := st = "Finishing" ∨ Ended st

/-- Elementary actions. -/
inductive Micro (now : Int) : DB → DB → Prop
  | refl (db : DB) : Micro now db db
  | trans {a b c : DB} (h1 : Micro now a b) (h2 : Micro now b c) : Micro now a c
  | state (db : DB) (jid : Nat) (st : String) (hst : st ∈ allStates)
      (h : ∀ j ∈ db.jobs, j.id = jid → j.state = "Finishing" → Ended st ∨ st = "Finishing") :
      Micro now db (setJobState db now jid st)
  | frame {db db' : DB} (hl : db'.log = db.log) (hj : db'.jobs.map JobRow.key = db.jobs.map JobRow.key) : Micro now db db'
  | new {db db' : DB} (j : JobRow) (hst : j.state ∈ allStates) (hid : ∀ k ∈ db.jobs, k.id < j.id)
      (hres : j.resubmit = 0 ∨ ((∀ k ∈ db.jobs, k.resubmit ≠ j.resubmit) ∧ ∃ p ∈ db.jobs, p.id = j.resubmit ∧ Done p.state))
      (hj : db'.jobs = db.jobs ++ [j]) (hl : db'.log = db.log ++ [⟨j.id, j.state, now, 0⟩]) : Micro now db db'

/-- The invariant of the histories. -/
structure Inv (t : Int) (db : DB) : Prop where
  ids : (db.jobs.map JobRow.id).Pairwise (· < ·)
  log : ∀ j ∈ db.jobs, Timeline j.state t (db.logOf j.id)
  known : ∀ r ∈ db.log, ∃ j ∈ db.jobs, j.id = r.jid
  parent : ∀ j ∈ db.jobs, j.resubmit ≠ 0 → ∃ p ∈ db.jobs, p.id = j.resubmit ∧ Done p.state
  valid : ∀ j ∈ db.jobs, j.state ∈ allStates
  uniq : ∀ j ∈ db.jobs, ∀ k ∈ db.jobs, j.resubmit ≠ 0 → j.resubmit = k.resubmit → j.id = k.id

theorem Timeline.mono {cur : String} {t t' : Int} (hle : t ≤ t') : ∀ {l : List LogRow}, Timeline cur t l → Timeline cur t' l
  | [], h => h
  | [r], h => by
    obtain ⟨h1, h2, h3, h4⟩ := h
    exact ⟨h1, h2, h3, by omega⟩
  | r :: r' :: rest, h => by
    obtain ⟨h1, h2, h3, h4, h5⟩ := h
    exact ⟨h1, h2, h3, h4, Timeline.mono hle h5⟩

theorem Inv.mono {t t' : Int} (hle : t ≤ t') {db : DB} (h : Inv t db) : Inv t' db :=
  ⟨h.ids, fun j hj => (h.log j hj).mono hle, h.known, h.parent, h.valid, h.uniq⟩

theorem inj_of_sorted {l : List JobRow} (h : (l.map JobRow.id).Pairwise (· < ·)) : ∀ a ∈ l, ∀ b ∈ l, a.id = b.id → a = b := by
  induction l with
  | nil => simp
  | cons x xs ih =>
    rw [List.map_cons, List.pairwise_cons] at h
    intro a ha b hb e
    rcases List.mem_cons.1 ha with ha | ha <;> rcases List.mem_cons.1 hb with hb | hb
    · rw [ha, hb]
    · have := h.1 b.id (List.mem_map_of_mem (f := JobRow.id) hb); rw [ha] at e; omega
    · have := h.1 a.id (List.mem_map_of_mem (f := JobRow.id) ha); rw [hb] at e; omega
    · exact ih h.2 a ha b hb e

theorem job?_some {db : DB} {jid : Nat} {j : JobRow} (h : db.job? jid = some j) : j ∈ db.jobs ∧ j.id = jid := by
  unfold DB.job? at h
  exact ⟨List.mem_of_find?_eq_some h, by simpa using List.find?_some h⟩

theorem job?_none {db : DB} {jid : Nat} (h : db.job? jid = none) : ∀ j ∈ db.jobs, j.id ≠ jid := by
  unfold DB.job? at h
  rw [List.find?_eq_none] at h
  intro j hj e
  exact h j hj (by simpa using e)

theorem job?_of_mem {db : DB} (hs : (db.jobs.map JobRow.id).Pairwise (· < ·)) {j : JobRow} (hj : j ∈ db.jobs) :
    db.job? j.id = some j := by
  cases h : db.job? j.id with
  | none => exact absurd rfl (job?_none h j hj)
  | some k =>
    obtain ⟨h1, h2⟩ := job?_some h
    rw [inj_of_sorted hs k h1 j hj h2]

theorem Timeline.ne_nil {cur : String} {t : Int} {l : List LogRow} (h : Timeline cur t l) : l ≠ [] := by
  rintro rfl; exact h

/-- Closing the open interval and opening a new one. -/
theorem timeline_close {cur st : String} {t now : Int} {jid : Nat} (hle : t ≤ now) (hne : cur ≠ st) :
    ∀ {l : List LogRow}, Timeline cur t l → (∀ r ∈ l, r.jid = jid) →
    Timeline st now (closeLog now jid l ++ [⟨jid, st, now, 0⟩])
  | [], h, _ => h.elim
  | [r], h, hj => by
    obtain ⟨h1, h2, h3, h4⟩ := h
    have hr := hj r (by simp)
    simp only [closeLog, List.map_cons, List.map_nil, h1, hr, and_self, if_true, List.cons_append, List.nil_append, Timeline]
    refine ⟨trivial, h3, by omega, by rw [h2]; exact hne, trivial, trivial, by omega, by omega⟩
  | r :: r' :: rest, h, hj => by
    obtain ⟨h1, h2, h3, h4, h5⟩ := h
    have ih := timeline_close hle hne h5 (fun x hx => hj x (by simp [hx]))
    have hr : closeLog now jid (r :: r' :: rest) = r :: closeLog now jid (r' :: rest) := by
      unfold closeLog
      rw [List.map_cons, if_neg (by omega)]
    rw [hr]
    have : ∃ x xs, closeLog now jid (r' :: rest) = x :: xs ∧ x.start = r'.start ∧ x.state = r'.state := by
      unfold closeLog
      rw [List.map_cons]
      refine ⟨_, _, rfl, ?_, ?_⟩ <;> split <;> rfl
    obtain ⟨x, xs, hx, hx1, hx2⟩ := this
    rw [hx] at ih ⊢
    simp only [List.cons_append] at ih ⊢
    exact ⟨by rw [hx1]; exact h1, h2, h3, by rw [hx2]; exact h4, ih⟩

theorem closeLog_filter (now : Int) (jid k : Nat) (l : List LogRow) :
    (closeLog now jid l).filter (fun r => r.jid == k) = closeLog now jid (l.filter (fun r => r.jid == k)) := by
  unfold closeLog
  rw [List.filter_map]
  congr 1
  apply List.filter_congr
  intro r _
  simp only [Function.comp]
  split <;> rfl

theorem closeLog_other (now : Int) (jid : Nat) (l : List LogRow) (h : ∀ r ∈ l, r.jid ≠ jid) : closeLog now jid l = l := by
  unfold closeLog
  conv => rhs; rw [← List.map_id l]
  apply List.map_congr_left
  intro r hr
  rw [if_neg (fun hh => h r hr hh.2)]
  rfl

theorem setJobState_cases (db : DB) (now : Int) (jid : Nat) (st : String) :
    setJobState db now jid st = db ∨
    ∃ j, db.job? jid = some j ∧ j.state ∈ aliveStates ∧ j.state ≠ st ∧
      setJobState db now jid st =
        { db.updJob jid (withState st) with log := closeLog now jid db.log ++ [⟨jid, st, now, 0⟩] } := by
  unfold setJobState
  cases h : db.job? jid with
  | none => exact Or.inl rfl
  | some j =>
    dsimp only
    by_cases hm : mayBecome j st = true
    · right
      rw [if_pos hm]
      unfold mayBecome at hm
      have hm' : j.state ∈ aliveStates.erase st := by simpa using hm
      refine ⟨j, rfl, List.mem_of_mem_erase hm', ?_, rfl⟩
      rintro rfl
      have : aliveStates.Nodup := by decide
      exact this.not_mem_erase hm'
    · left; rw [if_neg hm]

theorem withState_id (st : String) (j : JobRow) : (withState st j).id = j.id := rfl
theorem withState_state (st : String) (j : JobRow) : (withState st j).state = st := rfl
theorem withState_resubmit (st : String) (j : JobRow) : (withState st j).resubmit = j.resubmit := rfl

theorem updJob_ids (db : DB) (jid : Nat) (f : JobRow → JobRow) (hf : ∀ j, (f j).id = j.id) :
    (db.updJob jid f).jobs.map JobRow.id = db.jobs.map JobRow.id := by
  unfold DB.updJob
  rw [List.map_map]
  apply List.map_congr_left
  intro j _
  simp only [Function.comp]
  split
  · exact hf j
  · rfl

theorem mem_updJob {db : DB} {jid : Nat} {f : JobRow → JobRow} {j : JobRow} (h : j ∈ (db.updJob jid f).jobs) :
    ∃ i ∈ db.jobs, (i.id = jid ∧ j = f i) ∨ (i.id ≠ jid ∧ j = i) := by
  obtain ⟨i, hi, rfl⟩ := List.mem_map.1 h
  refine ⟨i, hi, ?_⟩
  by_cases e : i.id = jid
  · exact Or.inl ⟨e, by rw [if_pos e]⟩
  · exact Or.inr ⟨e, by rw [if_neg e]⟩

theorem updJob_mem {db : DB} {jid : Nat} {f : JobRow → JobRow} {i : JobRow} (h : i ∈ db.jobs) :
    (if i.id = jid then f i else i) ∈ (db.updJob jid f).jobs :=
  List.mem_map_of_mem (f := fun j : JobRow => if j.id = jid then f j else j) h

theorem not_done_alive {st : String} (h : st ∈ aliveStates) : ¬ Ended st := by
  rintro (rfl | rfl)
  · exact absurd h (by decide)
  · exact absurd h (by decide)

theorem inv_state {now : Int} {db : DB} (h : Inv now db) (jid : Nat) (st : String) (hst : st ∈ allStates)
    (hg : ∀ j ∈ db.jobs, j.id = jid → j.state = "Finishing" → Ended st ∨ st = "Finishing") :
    Inv now (setJobState db now jid st) := by
  rcases setJobState_cases db now jid st with e | ⟨j, hj, hal, hne, e⟩
  · rw [e]; exact h
  obtain ⟨hjm, hjid⟩ := job?_some hj
  rw [e]
  have hpar : ∀ k ∈ db.jobs, Done k.state → Done (if k.id = jid then withState st k else k).state := by
    intro k hk hd
    split
    · rename_i hid
      rw [withState_state]
      have : k = j := inj_of_sorted h.ids k hk j hjm (by omega)
      subst this
      rcases hd with hd | hd
      · rcases hg k hk hid hd with g | g
        · exact Or.inr g
        · exact Or.inl g
      · exact absurd hd (not_done_alive hal)
    · exact hd
  have hkey : ∀ k ∈ (db.updJob jid (withState st)).jobs, ∃ i ∈ db.jobs, k.id = i.id ∧ k.resubmit = i.resubmit ∧
      k = if i.id = jid then withState st i else i := by
    intro k hk
    obtain ⟨i, hi, hc⟩ := mem_updJob hk
    rcases hc with ⟨hc, rfl⟩ | ⟨hc, rfl⟩
    · exact ⟨i, hi, rfl, rfl, by rw [if_pos hc]⟩
    · exact ⟨k, hi, rfl, rfl, by rw [if_neg hc]⟩
  refine ⟨?_, ?_, ?_, ?_, ?_, ?_⟩
  · show ((db.updJob jid (withState st)).jobs.map JobRow.id).Pairwise (· < ·)
    rw [updJob_ids _ _ _ (withState_id st)]
    exact h.ids
  · intro k hk
    change k ∈ (db.updJob jid (withState st)).jobs at hk
    obtain ⟨i, hi, e1, _, e3⟩ := hkey k hk
    unfold DB.logOf
    dsimp only
    rw [List.filter_append, closeLog_filter]
    by_cases hid : i.id = jid
    · rw [if_pos hid] at e3
      have hij : i = j := inj_of_sorted h.ids i hi j hjm (by omega)
      subst hij
      rw [e1, hid, show ([⟨jid, st, now, 0⟩] : List LogRow).filter (fun r => r.jid == jid) = [⟨jid, st, now, 0⟩] by simp]
      rw [e3, withState_state]
      have := h.log i hi
      unfold DB.logOf at this
      rw [hid] at this
      refine timeline_close (Int.le_refl _) hne this ?_
      intro r hr
      simpa using (List.mem_filter.1 hr).2
    · rw [if_neg hid] at e3
      subst e3
      rw [show ([⟨jid, st, now, 0⟩] : List LogRow).filter (fun r => r.jid == k.id) = [] by
        simp; omega]
      rw [List.append_nil, closeLog_other]
      · exact h.log k hi
      · intro r hr
        have : r.jid = k.id := by simpa using (List.mem_filter.1 hr).2
        omega
  · intro r hr
    dsimp only at hr ⊢
    have key : ∃ k ∈ db.jobs, k.id = r.jid := by
      rcases List.mem_append.1 hr with hr | hr
      · obtain ⟨r', hr', rfl⟩ := List.mem_map.1 hr
        obtain ⟨k, hk, e⟩ := h.known r' hr'
        refine ⟨k, hk, ?_⟩
        split <;> exact e
      · have : r = ⟨jid, st, now, 0⟩ := by simpa using hr
        subst this
        exact ⟨j, hjm, hjid⟩
    obtain ⟨k, hk, e⟩ := key
    refine ⟨_, updJob_mem (jid := jid) (f := withState st) hk, ?_⟩
    split <;> exact e
  · intro k hk hr
    change k ∈ (db.updJob jid (withState st)).jobs at hk
    obtain ⟨i, hi, _, e2, _⟩ := hkey k hk
    obtain ⟨p, hp, hp1, hp2⟩ := h.parent i hi (by omega)
    refine ⟨_, updJob_mem (jid := jid) (f := withState st) hp, ?_, hpar p hp hp2⟩
    rw [e2, ← hp1]
    split <;> rfl
  · intro k hk
    change k ∈ (db.updJob jid (withState st)).jobs at hk
    obtain ⟨i, hi, _, _, e3⟩ := hkey k hk
    rw [e3]
    split
    · exact hst
    · exact h.valid i hi
  · intro a ha b hb hr hab
    change a ∈ (db.updJob jid (withState st)).jobs at ha
    change b ∈ (db.updJob jid (withState st)).jobs at hb
    obtain ⟨i, hi, e1, e2, _⟩ := hkey a ha
    obtain ⟨k, hk, f1, f2, _⟩ := hkey b hb
    rw [e1, f1]
    exact h.uniq i hi k hk (by omega) (by omega)

theorem mem_of_keys {l l' : List JobRow} (h : l'.map JobRow.key = l.map JobRow.key) {j : JobRow} (hj : j ∈ l') :
    ∃ i ∈ l, i.key = j.key := by
  have : j.key ∈ l.map JobRow.key := by rw [← h]; exact List.mem_map_of_mem (f := JobRow.key) hj
  obtain ⟨i, hi, e⟩ := List.mem_map.1 this
  exact ⟨i, hi, e⟩

theorem key_eq {i j : JobRow} (h : i.key = j.key) : i.id = j.id ∧ i.state = j.state ∧ i.resubmit = j.resubmit := by
  simpa [JobRow.key] using h

theorem inv_frame {now : Int} {db db' : DB} (h : Inv now db) (hl : db'.log = db.log)
    (hj : db'.jobs.map JobRow.key = db.jobs.map JobRow.key) : Inv now db' := by
  have hids : db'.jobs.map JobRow.id = db.jobs.map JobRow.id := by
    have := congrArg (List.map (fun k : Nat × String × Nat => k.1)) hj
    simpa [JobRow.key, List.map_map, Function.comp_def] using this
  refine ⟨by rw [hids]; exact h.ids, ?_, ?_, ?_, ?_, ?_⟩
  · intro j hjm
    obtain ⟨i, hi, e⟩ := mem_of_keys hj hjm
    obtain ⟨e1, e2, _⟩ := key_eq e
    have := h.log i hi
    unfold DB.logOf at this ⊢
    rw [hl, ← e1, ← e2]
    exact this
  · intro r hr
    rw [hl] at hr
    obtain ⟨i, hi, e⟩ := h.known r hr
    obtain ⟨j, hj', e'⟩ := mem_of_keys hj.symm hi
    exact ⟨j, hj', by rw [(key_eq e').1]; exact e⟩
  · intro j hjm hr
    obtain ⟨i, hi, e⟩ := mem_of_keys hj hjm
    obtain ⟨e1, e2, e3⟩ := key_eq e
    obtain ⟨p, hp, hp1, hp2⟩ := h.parent i hi (by omega)
    obtain ⟨q, hq, eq⟩ := mem_of_keys hj.symm hp
    obtain ⟨q1, q2, q3⟩ := key_eq eq
    exact ⟨q, hq, by omega, by rw [q2]; exact hp2⟩
  · intro j hjm
    obtain ⟨i, hi, e⟩ := mem_of_keys hj hjm
    rw [← (key_eq e).2.1]
    exact h.valid i hi
  · intro a ha b hb hr hab
    obtain ⟨i, hi, e⟩ := mem_of_keys hj ha
    obtain ⟨k, hk, f⟩ := mem_of_keys hj hb
    obtain ⟨e1, e2, e3⟩ := key_eq e
    obtain ⟨f1, f2, f3⟩ := key_eq f
    have := h.uniq i hi k hk (by omega) (by omega)
    omega

theorem inv_new {now : Int} {db db' : DB} (h : Inv now db) (hpos : 0 < now) (j : JobRow) (hst : j.state ∈ allStates) (hid : ∀ k ∈ db.jobs, k.id < j.id)
    (hres : j.resubmit = 0 ∨ ((∀ k ∈ db.jobs, k.resubmit ≠ j.resubmit) ∧ ∃ p ∈ db.jobs, p.id = j.resubmit ∧ Done p.state))
    (hj : db'.jobs = db.jobs ++ [j]) (hl : db'.log = db.log ++ [⟨j.id, j.state, now, 0⟩]) : Inv now db' := by
  refine ⟨?_, ?_, ?_, ?_, ?_, ?_⟩
  · rw [hj, List.map_append, List.pairwise_append]
    refine ⟨h.ids, by simp, ?_⟩
    intro a ha b hb
    obtain ⟨k, hk, rfl⟩ := List.mem_map.1 ha
    have : b = j.id := by simpa using hb
    rw [this]
    exact hid k hk
  · intro k hk
    rw [hj] at hk
    unfold DB.logOf
    rw [hl, List.filter_append]
    rcases List.mem_append.1 hk with hk | hk
    · have := hid k hk
      rw [show ([⟨j.id, j.state, now, 0⟩] : List LogRow).filter (fun r => r.jid == k.id) = [] by simp; omega, List.append_nil]
      exact h.log k hk
    · have : k = j := by simpa using hk
      subst this
      rw [show db.log.filter (fun r => r.jid == k.id) = [] by
        rw [List.filter_eq_nil_iff]
        intro r hr
        obtain ⟨i, hi, e⟩ := h.known r hr
        have := hid i hi
        simp; omega]
      simp [Timeline, hpos]
  · intro r hr
    rw [hl] at hr
    rw [hj]
    rcases List.mem_append.1 hr with hr | hr
    · obtain ⟨i, hi, e⟩ := h.known r hr
      exact ⟨i, List.mem_append_left _ hi, e⟩
    · have : r = ⟨j.id, j.state, now, 0⟩ := by simpa using hr
      subst this
      exact ⟨j, by simp, rfl⟩
  · intro k hk hr
    rw [hj] at hk ⊢
    rcases List.mem_append.1 hk with hk | hk
    · obtain ⟨p, hp, h1, h2⟩ := h.parent k hk hr
      exact ⟨p, List.mem_append_left _ hp, h1, h2⟩
    · have : k = j := by simpa using hk
      subst this
      rcases hres with hres | ⟨_, p, hp, h1, h2⟩
      · exact absurd hres hr
      · exact ⟨p, List.mem_append_left _ hp, h1, h2⟩
  · intro k hk
    rw [hj] at hk
    rcases List.mem_append.1 hk with hk | hk
    · exact h.valid k hk
    · rw [List.mem_singleton.1 hk]; exact hst
  · intro a ha b hb hr hab
    rw [hj] at ha hb
    have sing : ∀ x, x ∈ [j] → x = j := fun x hx => by simpa using hx
    rcases List.mem_append.1 ha with ha' | ha' <;> rcases List.mem_append.1 hb with hb' | hb'
    · exact h.uniq a ha' b hb' hr hab
    · have hbj := sing b hb'
      rw [hbj] at hab
      rcases hres with hres | ⟨hn, _⟩
      · omega
      · exact absurd hab (hn a ha')
    · have haj := sing a ha'
      rw [haj] at hab hr
      rcases hres with hres | ⟨hn, _⟩
      · omega
      · exact absurd hab.symm (hn b hb')
    · rw [sing a ha', sing b hb']

theorem Micro.inv {now : Int} (hpos : 0 < now) {db db' : DB} (hm : Micro now db db') : Inv now db → Inv now db' := by
  induction hm with
  | refl => exact id
  | trans _ _ ih1 ih2 => exact fun h => ih2 (ih1 h)
  | state db jid st hst hg => exact fun h => inv_state h jid st hst hg
  | frame hl hj => exact fun h => inv_frame h hl hj
  | new j hst hid hres hj hl => exact fun h => inv_new h hpos j hst hid hres hj hl

/-- What is never undone: the ended jobs stay as they are. -/
theorem Micro.keeps {now : Int} (hpos : 0 < now) {db db' : DB} (hm : Micro now db db') : Inv now db →
    ∀ j ∈ db.jobs, Ended j.state → ∃ j' ∈ db'.jobs, j'.id = j.id ∧ j'.state = j.state := by
  induction hm with
  | refl => exact fun _ j hj _ => ⟨j, hj, rfl, rfl⟩
  | trans h1 _ ih1 ih2 =>
    intro h j hj he
    obtain ⟨k, hk, e1, e2⟩ := ih1 h j hj he
    obtain ⟨l, hl, f1, f2⟩ := ih2 (h1.inv hpos h) k hk (e2 ▸ he)
    exact ⟨l, hl, by omega, f2.trans e2⟩
  | state db jid st hst hg =>
    intro h j hj he
    rcases setJobState_cases db now jid st with e | ⟨i, hi, hal, hne, e⟩
    · rw [e]; exact ⟨j, hj, rfl, rfl⟩
    · rw [e]
      obtain ⟨h1, h2⟩ := job?_some hi
      have hid : j.id ≠ jid := by
        intro hid
        have : i = j := inj_of_sorted h.ids i h1 j hj (by omega)
        subst this
        exact not_done_alive hal he
      refine ⟨j, ?_, rfl, rfl⟩
      have := updJob_mem (jid := jid) (f := withState st) hj
      rw [if_neg hid] at this
      exact this
  | frame hl hj =>
    intro _ j hjm he
    obtain ⟨i, hi, e⟩ := mem_of_keys hj.symm hjm
    obtain ⟨e1, e2, _⟩ := key_eq e
    exact ⟨i, hi, e1, e2⟩
  | new j hst hid hres hj hl =>
    intro _ k hk _
    exact ⟨k, by rw [hj]; exact List.mem_append_left _ hk, rfl, rfl⟩

/-! ## The actions of the modules as sequences of elementary actions -/

theorem micro_foldl {α : Type} {now : Int} (f : DB → α → DB) (hf : ∀ db x, Micro now db (f db x)) :
    ∀ (l : List α) (db : DB), Micro now db (l.foldl f db)
  | [], db => .refl db
  | x :: xs, db => .trans (hf db x) (micro_foldl f hf xs (f db x))

theorem micro_addEvent (now : Int) (db : DB) (ty : String) (jid : Nat) : Micro now db (addEvent db ty jid) :=
  .frame rfl rfl

theorem micro_addEventHosts (now : Int) (db : DB) (ty : String) (jid : Nat) (hs : List String) :
    Micro now db (addEventHosts db ty jid hs) := .frame rfl rfl

theorem updJob_keys (db : DB) (jid : Nat) (f : JobRow → JobRow) (hf : ∀ j, (f j).key = j.key) :
    (db.updJob jid f).jobs.map JobRow.key = db.jobs.map JobRow.key := by
  unfold DB.updJob
  rw [List.map_map]
  apply List.map_congr_left
  intro j _
  simp only [Function.comp]
  split
  · exact hf j
  · rfl

theorem micro_updJob (now : Int) (db : DB) (jid : Nat) (f : JobRow → JobRow) (hf : ∀ j, (f j).key = j.key) :
    Micro now db (db.updJob jid f) := .frame rfl (updJob_keys db jid f hf)

theorem micro_setFrag (now : Int) (db : DB) (jid : Nat) (st : String) : Micro now db (setFrag db jid st) := .frame rfl rfl

theorem micro_setFinish (now : Int) (db : DB) (jid : Nat) : Micro now db (setFinish db now jid) :=
  micro_updJob now db jid _ (fun _ => rfl)

theorem micro_finishing (now : Int) (db : DB) (jid : Nat) (evs : List String) (extra : List (String × List String)) :
    Micro now db (finishing db jid evs extra) := by
  unfold finishing
  exact .trans (micro_foldl _ (fun (db : DB) (x : String) => micro_addEvent now db x jid) _ _)
    (micro_foldl _ (fun (db : DB) (x : String × List String) => micro_addEventHosts now db x.1 jid x.2) _ _)

theorem micro_ended (now : Int) (db : DB) (jid : Nat) {st : String} (h : Ended st) : Micro now db (setJobState db now jid st) :=
  .state db jid st (by rcases h with h | h <;> rw [h] <;> decide) (fun _ _ _ _ => Or.inl h)

theorem micro_fragJob (now : Int) (db : DB) (jid : Nat) (user : String) : Micro now db (fragJob db now jid user).2 := by
  unfold fragJob
  cases db.job? jid with
  | none => exact .refl db
  | some j =>
    dsimp only
    split
    · split
      · exact .refl db
      · exact .frame rfl rfl
    · exact .refl db

theorem micro_leonOne (w : World) (now : Int) (db : DB) (jid : Nat) : Micro now db (leonOne w now db jid) := by
  unfold leonOne
  cases db.job? jid with
  | none => exact .refl db
  | some j =>
    refine .trans ?_ (micro_setFrag now _ jid _)
    unfold leonAct
    split
    · exact micro_ended now db _ (Or.inr rfl)
    split
    · exact .refl db
    split
    · exact .trans (.trans (micro_setFinish now db _) (micro_ended now _ _ (Or.inl rfl))) (micro_finishing now _ _ _ _)
    split
    · exact micro_addEvent now db _ _
    · exact .refl db

theorem micro_exterminateOne (now : Int) (db : DB) (jid : Nat) : Micro now db (exterminateOne now db jid) := by
  unfold exterminateOne
  refine .trans (.trans (.state db jid "Finishing" (by decide) (fun _ _ _ _ => Or.inr rfl)) (micro_updJob now _ jid _ ?_))
    (micro_setFinish now _ jid)
  intro j
  split <;> rfl

theorem micro_leonRun (w : World) (now : Int) (db : DB) : Micro now db (leonRun w now db) := by
  unfold leonRun
  exact .trans (micro_foldl _ (micro_leonOne w now) _ _) (micro_foldl _ (micro_exterminateOne now) _ _)

theorem micro_leonExterminate (w : World) (now : Int) (db : DB) (jid : Nat) : Micro now db (leonExterminate w db jid) := by
  unfold leonExterminate
  split
  · exact .trans (micro_setFrag now db jid _) (micro_finishing now _ _ _ _)
  · exact .refl db

theorem micro_sarkoTimer (soft wall now : Int) (db : DB) (jid : Nat) : Micro now db (sarkoTimer soft wall now db jid) := by
  unfold sarkoTimer
  split
  · split
    · exact micro_setFrag now db jid _
    split
    · exact micro_setFrag now db jid _
    split
    · exact micro_setFrag now db jid _
    · exact .refl db
  · exact .refl db

theorem micro_sarkoJob (w : World) (now : Int) (db : DB) (jid : Nat) : Micro now db (sarkoJob w now db jid) := by
  unfold sarkoJob
  split
  · exact .refl db
  · split
    · exact .trans (micro_fragJob now db jid _) (micro_addEvent now _ _ _)
    split
    · exact .trans (micro_addEvent now db _ _) (micro_addEvent now _ _ _)
    · exact .refl db

theorem micro_sarkoRun (w : World) (soft wall now : Int) (db : DB) : Micro now db (sarkoRun w soft wall now db) := by
  unfold sarkoRun
  exact .trans (micro_foldl _ (micro_sarkoTimer soft wall now) _ _) (micro_foldl _ (micro_sarkoJob w now) _ _)

theorem le_foldl_max : ∀ (l : List Nat) (m : Nat), m ≤ l.foldl max m ∧ ∀ x ∈ l, x ≤ l.foldl max m
  | [], m => ⟨Nat.le_refl _, by simp⟩
  | y :: ys, m => by
    obtain ⟨h1, h2⟩ := le_foldl_max ys (max m y)
    rw [List.foldl_cons]
    refine ⟨by omega, fun x hx => ?_⟩
    rcases List.mem_cons.1 hx with hx | hx
    · omega
    · exact h2 x hx

theorem lt_nextId {db : DB} {j : JobRow} (h : j ∈ db.jobs) : j.id < nextId db := by
  have := (le_foldl_max (db.jobs.map JobRow.id) 0).2 j.id (List.mem_map_of_mem (f := JobRow.id) h)
  unfold nextId
  omega

/-- A resubmission is an elementary action if the job has not been resubmitted yet. -/
theorem micro_resubmit (now : Int) (kc : Bool) (user : String) {db : DB} {jid : Nat}
    (hn : jid = 0 ∨ ∀ k ∈ db.jobs, k.resubmit ≠ jid) : Micro now db (resubmitJob db now kc user jid).2.1 := by
  unfold resubmitJob
  cases hj : db.job? jid with
  | none => exact .refl db
  | some j =>
    obtain ⟨hjm, hjid⟩ := job?_some hj
    dsimp only
    split
    · exact .refl db
    split
    · exact .refl db
    rename_i hst
    split
    · exact .refl db
    split
    · exact .refl db
    refine .new (newJobRow j (nextId db)) (show "Waiting" ∈ allStates by decide) (fun k hk => lt_nextId hk) ?_ rfl rfl
    rcases hn with hn | hn
    · exact Or.inl (hjid.trans hn)
    · refine Or.inr ⟨fun k hk => ?_, j, hjm, rfl, ?_⟩
      · show k.resubmit ≠ j.id
        rw [hjid]; exact hn k hk
      · unfold Done Ended
        by_cases h1 : j.state = "Finishing"
        · exact Or.inl h1
        · by_cases h2 : j.state = "Terminated"
          · exact Or.inr (Or.inl h2)
          · by_cases h3 : j.state = "Error"
            · exact Or.inr (Or.inr h3)
            · exact absurd ⟨h3, h2, h1⟩ hst

theorem resubmitted_false {db : DB} {jid : Nat} (h : resubmitted db jid = false) : ∀ k ∈ db.jobs, k.resubmit ≠ jid := by
  unfold resubmitted at h
  rw [List.any_eq_false] at h
  intro k hk e
  exact h k hk (by simpa using e)

/-- The job after `setJobState`. -/
theorem setJobState_state {db : DB} {now : Int} {jid : Nat} {st : String} {j : JobRow} (hj : db.job? jid = some j)
    (hal : j.state ∈ aliveStates) : ∀ k ∈ (setJobState db now jid st).jobs, k.id = jid → k.state = st ∨
      ∃ i ∈ db.jobs, i.id = jid ∧ i ≠ j := by
  intro k hk hid
  rcases setJobState_cases db now jid st with e | ⟨i, hi, _, _, e⟩
  · rw [e] at hk
    by_cases h : k = j
    · left
      subst h
      unfold setJobState at e
      rw [hj] at e
      dsimp only at e
      by_cases hm : mayBecome k st = true
      · rw [if_pos hm] at e
        have := congrArg (fun d => d.log.length) e
        simp [closeLog] at this
      · unfold mayBecome at hm
        have hm' : k.state ∉ aliveStates.erase st := by simpa using hm
        by_cases hs : k.state = st
        · exact hs
        · exact absurd ((List.mem_erase_of_ne hs).2 hal) hm'
    · exact Or.inr ⟨k, hk, hid, h⟩
  · rw [e] at hk
    obtain ⟨x, hx, hc⟩ := mem_updJob (show k ∈ (db.updJob jid (withState st)).jobs from hk)
    rcases hc with ⟨_, rfl⟩ | ⟨hc, rfl⟩
    · exact Or.inl rfl
    · exact absurd hid hc

end Oar.Jobs
