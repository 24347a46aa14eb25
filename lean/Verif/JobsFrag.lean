import Verif.JobsSuspend

/-!
# The deletion of jobs: lemmas on the table of deletion requests
-/

namespace Oar.Jobs

/-- A job that is finishing or has ended stays so. -/
theorem Micro.keepsDone {now : Int} (hpos : 0 < now) {db db' : DB} (hm : Micro now db db') : Inv now db →
    ∀ j ∈ db.jobs, Done j.state → ∃ j' ∈ db'.jobs, j'.id = j.id ∧ Done j'.state := by
  induction hm with
  | refl => exact fun _ j hj hd => ⟨j, hj, rfl, hd⟩
  | trans h1 _ ih1 ih2 =>
    intro h j hj hd
    obtain ⟨k, hk, e1, e2⟩ := ih1 h j hj hd
    obtain ⟨l, hl, f1, f2⟩ := ih2 (h1.inv hpos h) k hk e2
    exact ⟨l, hl, by omega, f2⟩
  | state db jid st hst hg =>
    intro h j hj hd
    rcases setJobState_cases db now jid st with e | ⟨i, hi, hal, hne, e⟩
    · rw [e]; exact ⟨j, hj, rfl, hd⟩
    · rw [e]
      have hm := updJob_mem (jid := jid) (f := withState st) hj
      refine ⟨_, hm, by split <;> rfl, ?_⟩
      split
      · rename_i hid
        rw [withState_state]
        rcases hd with hd | hd
        · rcases hg j hj hid hd with g | g
          · exact Or.inr g
          · exact Or.inl g
        · obtain ⟨h1, h2⟩ := job?_some hi
          rw [inj_of_sorted h.ids i h1 j hj (by omega)] at hal
          exact absurd hd (not_done_alive hal)
      · exact hd
  | frame hl hj =>
    intro _ j hjm hd
    obtain ⟨i, hi, e⟩ := mem_of_keys hj.symm hjm
    obtain ⟨e1, e2, _⟩ := key_eq e
    exact ⟨i, hi, e1, e2 ▸ hd⟩
  | new j hst hid hres hj hl =>
    intro _ k hk hd
    exact ⟨k, by rw [hj]; exact List.mem_append_left _ hk, rfl, hd⟩

/-- No job disappears. -/
theorem Micro.keepsJob {now : Int} {db db' : DB} (hm : Micro now db db') :
    ∀ j ∈ db.jobs, ∃ j' ∈ db'.jobs, j'.id = j.id := by
  induction hm with
  | refl => exact fun j hj => ⟨j, hj, rfl⟩
  | trans h1 _ ih1 ih2 =>
    intro j hj
    obtain ⟨k, hk, e1⟩ := ih1 j hj
    obtain ⟨l, hl, f1⟩ := ih2 k hk
    exact ⟨l, hl, by omega⟩
  | state db jid st hst hg =>
    intro j hj
    rcases setJobState_cases db now jid st with e | ⟨i, hi, hal, hne, e⟩
    · rw [e]; exact ⟨j, hj, rfl⟩
    · rw [e]
      exact ⟨_, updJob_mem (jid := jid) (f := withState st) hj, by split <;> rfl⟩
  | frame hl hj =>
    intro j hjm
    obtain ⟨i, hi, e⟩ := mem_of_keys hj.symm hjm
    exact ⟨i, hi, (key_eq e).1⟩
  | new j hst hid hres hj hl =>
    intro k hk
    exact ⟨k, by rw [hj]; exact List.mem_append_left _ hk, rfl⟩

theorem micro_foldl_inv {α : Type} {now : Int} (hpos : 0 < now) (f : DB → α → DB)
    (hf : ∀ db x, Inv now db → Micro now db (f db x)) :
    ∀ (l : List α) (db : DB), Inv now db → Micro now db (l.foldl f db)
  | [], db, _ => .refl db
  | x :: xs, db, h => .trans (hf db x h) (micro_foldl_inv hpos f hf xs (f db x) ((hf db x h).inv hpos h))

/-! ## Actions that only add requests -/

/-- The table of requests is unchanged or gets new rows for jobs without any. -/
inductive FMicro : DB → DB → Prop
  | trans {a b c : DB} (h1 : FMicro a b) (h2 : FMicro b c) : FMicro a c
  | same {db db' : DB} (h : db'.frags = db.frags) : FMicro db db'
  | new {db db' : DB} (f : FragRow) (hn : ∀ g ∈ db.frags, g.jid ≠ f.jid) (hst : f.state = "LEON")
      (hj : ∃ j, db.job? f.jid = some j) (h : db'.frags = db.frags ++ [f]) : FMicro db db'

theorem FMicro.rows {db db' : DB} (h : FMicro db db') : ∃ new, db'.frags = db.frags ++ new ∧ ∀ f ∈ new, f.state = "LEON" := by
  induction h with
  | trans _ _ ih1 ih2 =>
    obtain ⟨n1, e1, p1⟩ := ih1
    obtain ⟨n2, e2, p2⟩ := ih2
    refine ⟨n1 ++ n2, by rw [e2, e1, List.append_assoc], ?_⟩
    intro f hf
    rcases List.mem_append.1 hf with hf | hf
    · exact p1 f hf
    · exact p2 f hf
  | same h => exact ⟨[], by rw [h, List.append_nil], by simp⟩
  | new f hn hst hj h => exact ⟨[f], h, by simp [hst]⟩

theorem FMicro.nodup {db db' : DB} (h : FMicro db db') : (db.frags.map FragRow.jid).Nodup → (db'.frags.map FragRow.jid).Nodup := by
  induction h with
  | trans _ _ ih1 ih2 => exact fun h => ih2 (ih1 h)
  | same h => rw [h]; exact id
  | new f hn hst hj h =>
    intro hd
    rw [h, List.map_append, List.nodup_append]
    refine ⟨hd, by simp, ?_⟩
    intro a ha b hb
    obtain ⟨g, hg, rfl⟩ := List.mem_map.1 ha
    have : b = f.jid := by simpa using hb
    rw [this]
    exact hn g hg

theorem frags_setJobState (db : DB) (now : Int) (jid : Nat) (st : String) : (setJobState db now jid st).frags = db.frags := by
  rcases setJobState_cases db now jid st with e | ⟨_, _, _, _, e⟩ <;> rw [e] <;> rfl

theorem frags_foldl {α : Type} (f : DB → α → DB) (hf : ∀ db x, (f db x).frags = db.frags) :
    ∀ (l : List α) (db : DB), (l.foldl f db).frags = db.frags
  | [], _ => rfl
  | x :: xs, db => by rw [List.foldl_cons, frags_foldl f hf xs, hf]

theorem frags_finishing (db : DB) (jid : Nat) (evs : List String) (extra : List (String × List String)) :
    (finishing db jid evs extra).frags = db.frags := by
  unfold finishing
  rw [frags_foldl (fun (d : DB) (e : String × List String) => addEventHosts d e.1 jid e.2) (fun _ _ => rfl),
    frags_foldl (fun (d : DB) (e : String) => addEvent d e jid) (fun _ _ => rfl)]

theorem fmicro_fragJob (db : DB) (now : Int) (jid : Nat) (user : String) : FMicro db (fragJob db now jid user).2 := by
  rcases fragJob_spec db now jid user with ⟨⟨j, hj, _⟩, hn, e⟩ | ⟨_, _, e⟩
  · rw [e]
    exact .new ⟨jid, now, "LEON"⟩ hn rfl ⟨j, hj⟩ rfl
  · rw [e]; exact .same rfl

theorem frags_holdJob (db : DB) (al : Bool) (jid : Nat) (r : Bool) (u : String) : (holdJob db al jid r u).2.frags = db.frags := by
  rcases holdJob_spec db al jid r u with ⟨_, e⟩ | ⟨_, _, e⟩ <;> rw [e]

theorem frags_resumeJob (db : DB) (al : Bool) (jid : Nat) (u : String) : (resumeJob db al jid u).2.frags = db.frags := by
  rcases resumeJob_spec db al jid u with ⟨_, e⟩ | ⟨_, _, e⟩ <;> rw [e]

theorem frags_askCheckpoint (db : DB) (jid : Nat) (s : Option String) (u : String) :
    (askCheckpoint db jid s u).2.frags = db.frags := by
  rcases askCheckpoint_spec db jid s u with ⟨_, _, _, e⟩ | ⟨_, _, e⟩ <;> rw [e]

theorem frags_resubmit (db : DB) (now : Int) (kc : Bool) (user : String) (jid : Nat) :
    (resubmitJob db now kc user jid).2.1.frags = db.frags := by
  unfold resubmitJob
  cases db.job? jid with
  | none => rfl
  | some j =>
    dsimp only
    split
    · rfl
    split
    · rfl
    split
    · rfl
    split
    · rfl
    · rfl

theorem frags_checkEnd (db : DB) (now : Int) (kc : Bool) (extra : List (String × List String)) (jid : Nat) (exit : Option Int)
    (error : Int) : (checkEnd db now kc extra jid exit error).frags = db.frags := by
  unfold checkEnd
  cases db.job? jid with
  | none => rfl
  | some j =>
    dsimp only
    split
    · rw [frags_finishing]
      have h1 : (setJobState (setFinish db now jid) now jid "Finishing").frags = db.frags := by
        rw [frags_setJobState]; rfl
      generalize setJobState (setFinish db now jid) now jid "Finishing" = d at h1
      have h2 : ∀ d : DB, (endResubmit d now kc j error).1.frags = d.frags := by
        intro d
        unfold endResubmit
        split
        · exact frags_resubmit _ _ _ _ _
        · rfl
      rw [h2]
      cases exit with
      | none => exact h1
      | some c => exact h1
    · rfl

theorem frags_ncs1 (env : Env) (db : DB) (ev : Event) (j : JobRow) : (ncs1 env db ev j).frags = db.frags := by
  unfold ncs1
  split
  · exact frags_resubmit _ _ _ _ _
  · rfl

theorem frags_ite {c : Prop} [Decidable c] {a db : DB} (h : a.frags = db.frags) : (if c then a else db).frags = db.frags := by
  split
  · exact h
  · rfl

theorem frags_ncs2 (env : Env) (db : DB) (ev : Event) (j : JobRow) : (ncs2 env db ev j).frags = db.frags := by
  unfold ncs2
  dsimp only
  rw [frags_ite (frags_setJobState _ _ _ _), frags_ite (frags_setJobState _ _ _ _)]
  split
  · exact frags_setJobState _ _ _ _
  · exact frags_ite (frags_setJobState _ _ _ _)

theorem frags_ncs3 (env : Env) (db : DB) (ev : Event) (j : JobRow) : (ncs3 env db ev j).frags = db.frags := by
  unfold ncs3
  dsimp only
  rw [frags_ite]
  · exact frags_ite (frags_setJobState _ _ _ _)
  · exact frags_resubmit _ _ _ _ _

theorem fmicro_suspendJob (env : Env) (db : DB) (j : JobRow) : FMicro db (suspendJob env db j) := by
  have hact : (suspendAction db env.now j.id).frags = db.frags := frags_setJobState db env.now j.id "Suspended"
  unfold suspendJob
  cases env.suspend with
  | noCpuset => exact .same rfl
  | noNodes => exact .same rfl
  | badFile => exact .same rfl
  | done => exact .same hact
  | scriptError =>
    refine .same ?_
    dsimp only
    rw [frags_setJobState]
    exact hact
  | badNodes hosts =>
    exact .trans (.same (db' := addEventHosts db "SUSPEND_ERROR" j.id hosts) rfl) (fmicro_fragJob _ _ _ _)

theorem fmicro_ncs4 {env : Env} {db db' : DB} {ev : Event} {j : JobRow} (h : ncs4 env db ev j = some db') : FMicro db db' := by
  unfold ncs4 at h
  split at h
  · split at h
    · rw [← Option.some.inj h]; exact .same (frags_setJobState _ _ _ _)
    split at h
    · rw [← Option.some.inj h]; exact .same (frags_setJobState _ _ _ _)
    split at h
    · split at h
      · exact absurd h (by simp)
      · rw [← Option.some.inj h]; exact fmicro_suspendJob env db j
    split at h
    · rw [← Option.some.inj h]; exact .same (frags_setJobState _ _ _ _)
    split at h
    · rw [← Option.some.inj h]; exact .same (frags_setJobState _ _ _ _)
    · rw [← Option.some.inj h]; exact .same rfl
  · rw [← Option.some.inj h]; exact .same rfl

theorem fmicro_ncsEvent {env : Env} {db db' : DB} {ev : Event} {hs : List (String × Bool)}
    (h : ncsEvent env db ev = some (db', hs)) : FMicro db db' := by
  unfold ncsEvent at h
  cases hj : db.job? ev.jid with
  | none =>
    rw [hj] at h
    dsimp only at h
    split at h
    · exact absurd h (by simp)
    · rw [← (Prod.mk.inj (Option.some.inj h)).1]; exact .same rfl
  | some j =>
    rw [hj] at h
    dsimp only at h
    cases hsu : suspectHosts env ev j with
    | none => rw [hsu] at h; exact absurd h (by simp)
    | some v =>
      obtain ⟨hosts, finaud, logged⟩ := v
      rw [hsu] at h
      dsimp only at h
      have h3 : (ncs3 env (if logged then addEventHosts (ncs2 env (ncs1 env db ev j) ev j) "LOG_SUSPECTED" 0 hosts
          else ncs2 env (ncs1 env db ev j) ev j) ev j).frags = db.frags := by
        rw [frags_ncs3]
        have : ∀ d : DB, (if logged = true then addEventHosts d "LOG_SUSPECTED" 0 hosts else d).frags = d.frags :=
          fun d => frags_ite rfl
        rw [this, frags_ncs2, frags_ncs1]
      generalize ncs3 env (if logged then addEventHosts (ncs2 env (ncs1 env db ev j) ev j) "LOG_SUSPECTED" 0 hosts
          else ncs2 env (ncs1 env db ev j) ev j) ev j = d3 at h h3
      cases h4 : ncs4 env d3 ev j with
      | none => rw [h4] at h; exact absurd h (by simp)
      | some d4 =>
        rw [h4] at h
        dsimp only at h
        rw [← (Prod.mk.inj (Option.some.inj h)).1]
        exact .trans (.same h3) (.trans (fmicro_ncs4 h4) (.same rfl))

theorem fmicro_ncsLoop {env : Env} : ∀ (evs : List Event) {db db' : DB} {hs : List (String × Bool)},
    ncsLoop env evs db = some (db', hs) → FMicro db db'
  | [], db, db', hs, h => by
    unfold ncsLoop at h
    rw [← (Prod.mk.inj (Option.some.inj h)).1]; exact .same rfl
  | ev :: evs, db, db', hs, h => by
    unfold ncsLoop at h
    cases he : ncsEvent env db ev with
    | none => rw [he] at h; exact absurd h (by simp)
    | some v =>
      obtain ⟨d1, h1⟩ := v
      rw [he] at h
      dsimp only at h
      cases hl : ncsLoop env evs d1 with
      | none => rw [hl] at h; exact absurd h (by simp)
      | some v2 =>
        obtain ⟨d2, h2⟩ := v2
        rw [hl] at h
        dsimp only at h
        rw [← (Prod.mk.inj (Option.some.inj h)).1]
        exact .trans (fmicro_ncsEvent he) (fmicro_ncsLoop evs hl)

/-! ## Leon -/

theorem leonAct_frags (w : World) (now : Int) (db : DB) (j : JobRow) : (leonAct w now db j).frags = db.frags := by
  unfold leonAct
  split
  · exact frags_setJobState _ _ _ _
  split
  · rfl
  split
  · rw [frags_finishing, frags_setJobState]; rfl
  split
  · rfl
  · rfl

/-- The requests in state `st` for the jobs of `l`. -/
def markAll (l : List Nat) (st : String) (fs : List FragRow) : List FragRow :=
  fs.map (fun f => if f.jid ∈ l then { f with state := st } else f)

theorem leonFold_frags (w : World) (now : Int) : ∀ (l : List Nat) (db : DB), (∀ i ∈ l, ∃ j ∈ db.jobs, j.id = i) →
    (l.foldl (leonOne w now) db).frags = markAll l "TIMER_ARMED" db.frags
  | [], db, _ => by
    unfold markAll
    simp
  | i :: l, db, h => by
    rw [List.foldl_cons, leonFold_frags w now l]
    · obtain ⟨j, hj, hid⟩ := h i (by simp)
      unfold leonOne
      cases hf : db.job? i with
      | none => exact absurd hid (job?_none hf j hj)
      | some k =>
        dsimp only
        unfold setFrag markAll
        dsimp only
        rw [leonAct_frags, List.map_map]
        apply List.map_congr_left
        intro f _
        simp only [Function.comp, List.mem_cons]
        by_cases h1 : f.jid = i
        · simp [h1]
        · simp [h1]
    · intro x hx
      obtain ⟨j, hj, hid⟩ := h x (by simp [hx])
      obtain ⟨k, hk, e⟩ := (micro_leonOne w now db i).keepsJob j hj
      exact ⟨k, hk, by omega⟩

theorem exterminateOne_frags (now : Int) (db : DB) (jid : Nat) : (exterminateOne now db jid).frags = db.frags :=
  frags_setJobState db now jid "Finishing"

theorem mem_toKill {db : DB} {i : Nat} : i ∈ toKill db ↔ ∃ j ∈ db.jobs, j.id = i ∧ ¬ Done j.state ∧
    ∃ f ∈ db.frags, f.jid = i ∧ f.state = "LEON" := by
  unfold toKill Done Ended
  rw [List.mem_map]
  constructor
  · rintro ⟨j, hj, rfl⟩
    obtain ⟨hj, hc⟩ := List.mem_filter.1 hj
    simp only [Bool.and_eq_true, Bool.not_eq_true', Bool.or_eq_false_iff, beq_eq_false_iff_ne] at hc
    obtain ⟨f, hf, hf2⟩ := List.any_eq_true.1 hc.1
    simp only [Bool.and_eq_true, beq_iff_eq] at hf2
    refine ⟨j, hj, rfl, ?_, f, hf, hf2.1, hf2.2⟩
    rintro (h | h | h)
    · exact hc.2.2 h
    · exact hc.2.1.2 h
    · exact hc.2.1.1 h
  · rintro ⟨j, hj, rfl, hd, f, hf, h1, h2⟩
    refine ⟨j, List.mem_filter.2 ⟨hj, ?_⟩, rfl⟩
    simp only [Bool.and_eq_true, Bool.not_eq_true', Bool.or_eq_false_iff, beq_eq_false_iff_ne]
    refine ⟨List.any_eq_true.2 ⟨f, hf, by simp [h1, h2]⟩, ⟨fun h => hd (Or.inr (Or.inr h)), fun h => hd (Or.inr (Or.inl h))⟩,
      fun h => hd (Or.inl h)⟩

theorem mem_withFrag {db : DB} {st : String} {i : Nat} : i ∈ withFrag db st ↔ (∃ j ∈ db.jobs, j.id = i) ∧
    ∃ f ∈ db.frags, f.jid = i ∧ f.state = st := by
  unfold withFrag
  rw [List.mem_map]
  constructor
  · rintro ⟨j, hj, rfl⟩
    obtain ⟨hj, hc⟩ := List.mem_filter.1 hj
    obtain ⟨f, hf, hf2⟩ := List.any_eq_true.1 hc
    simp only [Bool.and_eq_true, beq_iff_eq] at hf2
    exact ⟨⟨j, hj, rfl⟩, f, hf, hf2.1, hf2.2⟩
  · rintro ⟨⟨j, hj, rfl⟩, f, hf, h1, h2⟩
    exact ⟨j, List.mem_filter.2 ⟨hj, List.any_eq_true.2 ⟨f, hf, by simp [h1, h2]⟩⟩, rfl⟩

/-- The requests after a run of Leon. -/
theorem leonRun_frags (w : World) (now : Int) (db : DB) :
    (leonRun w now db).frags = markAll (toKill db) "TIMER_ARMED" db.frags := by
  unfold leonRun
  dsimp only
  rw [frags_foldl _ (exterminateOne_frags now), leonFold_frags]
  intro i hi
  obtain ⟨j, hj, e, _⟩ := mem_toKill.1 hi
  exact ⟨j, hj, e⟩

/-! ## Sarko -/

/-- The decision of Sarko on an armed timer: `none` while the delay is not over. -/
def verdict (soft wall now : Int) (st : String) (date : Int) : Option String :=
  if st = "Terminated" ∨ st = "Error" ∨ st = "Finishing" then some "FRAGGED"
  else if now > date + soft ∧ now ≤ date + leonWalltime soft wall then some "LEON"
  else if now > date + leonWalltime soft wall then some "LEON_EXTERMINATE"
  else none

theorem sarkoTimer_eq (soft wall now : Int) (db : DB) (jid : Nat) {j : JobRow} {f : FragRow} (hj : db.job? jid = some j)
    (hf : db.frags.find? (fun f => f.jid == jid) = some f) :
    sarkoTimer soft wall now db jid = match verdict soft wall now j.state f.date with
      | some st => setFrag db jid st
      | none => db := by
  unfold sarkoTimer verdict
  rw [hj, hf]
  dsimp only
  split
  · rfl
  split
  · rfl
  split
  · rfl
  · rfl

theorem sarkoTimer_jobs (soft wall now : Int) (db : DB) (jid : Nat) :
    (sarkoTimer soft wall now db jid).jobs = db.jobs ∧ (sarkoTimer soft wall now db jid).log = db.log ∧
    (sarkoTimer soft wall now db jid).events = db.events ∧ (sarkoTimer soft wall now db jid).deps = db.deps := by
  unfold sarkoTimer
  split
  · split
    · exact ⟨rfl, rfl, rfl, rfl⟩
    split
    · exact ⟨rfl, rfl, rfl, rfl⟩
    split
    · exact ⟨rfl, rfl, rfl, rfl⟩
    · exact ⟨rfl, rfl, rfl, rfl⟩
  · exact ⟨rfl, rfl, rfl, rfl⟩

theorem sarkoFold_jobs (soft wall now : Int) : ∀ (l : List Nat) (db : DB),
    (l.foldl (sarkoTimer soft wall now) db).jobs = db.jobs ∧ (l.foldl (sarkoTimer soft wall now) db).log = db.log ∧
    (l.foldl (sarkoTimer soft wall now) db).events = db.events ∧ (l.foldl (sarkoTimer soft wall now) db).deps = db.deps
  | [], db => ⟨rfl, rfl, rfl, rfl⟩
  | x :: xs, db => by
    obtain ⟨h1, h2, h3, h4⟩ := sarkoFold_jobs soft wall now xs (sarkoTimer soft wall now db x)
    obtain ⟨g1, g2, g3, g4⟩ := sarkoTimer_jobs soft wall now db x
    rw [List.foldl_cons]
    exact ⟨h1.trans g1, h2.trans g2, h3.trans g3, h4.trans g4⟩

/-- The row of a request after the decision. -/
def decided (soft wall now : Int) (db : DB) (f : FragRow) : FragRow :=
  match db.job? f.jid with
  | some j => { f with state := (verdict soft wall now j.state f.date).getD f.state }
  | none => f

theorem find_nodup {fs : List FragRow} (hd : (fs.map FragRow.jid).Nodup) {f : FragRow} (hf : f ∈ fs) :
    fs.find? (fun g => g.jid == f.jid) = some f := by
  induction fs with
  | nil => simp at hf
  | cons a fs ih =>
    rw [List.map_cons, List.nodup_cons] at hd
    rcases List.mem_cons.1 hf with h | h
    · rw [h, List.find?_cons_of_pos (by simp)]
    · rw [List.find?_cons_of_neg, ih hd.2 h]
      intro e
      apply hd.1
      rw [show a.jid = f.jid by simpa using e]
      exact List.mem_map_of_mem (f := FragRow.jid) h

theorem sarkoFold_frags (soft wall now : Int) : ∀ (l : List Nat) (db : DB), l.Nodup → (db.frags.map FragRow.jid).Nodup →
    (l.foldl (sarkoTimer soft wall now) db).frags =
      db.frags.map (fun f => if f.jid ∈ l then decided soft wall now db f else f)
  | [], db, _, _ => by simp
  | i :: l, db, hl, hd => by
    rw [List.nodup_cons] at hl
    have hone : (sarkoTimer soft wall now db i).frags =
        db.frags.map (fun f => if f.jid = i then decided soft wall now db f else f) := by
      cases hj : db.job? i with
      | none =>
        unfold sarkoTimer
        rw [hj]
        dsimp only
        conv => lhs; rw [← List.map_id db.frags]
        apply List.map_congr_left
        intro f _
        split
        · rename_i e
          unfold decided
          rw [e, hj]
          rfl
        · rfl
      | some j =>
        cases hf : db.frags.find? (fun f => f.jid == i) with
        | none =>
          unfold sarkoTimer
          rw [hj, hf]
          dsimp only
          conv => lhs; rw [← List.map_id db.frags]
          apply List.map_congr_left
          intro f hfm
          rw [if_neg]
          · rfl
          · intro e
            rw [List.find?_eq_none] at hf
            exact hf f hfm (by simpa using e)
        | some f0 =>
          rw [sarkoTimer_eq soft wall now db i hj hf]
          have hu : ∀ f ∈ db.frags, f.jid = i → f = f0 := by
            intro f hfm e
            have := find_nodup hd hfm
            rw [e, hf] at this
            exact (Option.some.inj this).symm
          cases hv : verdict soft wall now j.state f0.date with
          | none =>
            dsimp only
            conv => lhs; rw [← List.map_id db.frags]
            apply List.map_congr_left
            intro f hfm
            split
            · rename_i e
              unfold decided
              rw [e, hj]
              dsimp only
              have hv' : verdict soft wall now j.state f.date = none := by rw [hu f hfm e]; exact hv
              rw [hv', ← e]
              rfl
            · rfl
          | some st =>
            dsimp only
            unfold setFrag
            dsimp only
            apply List.map_congr_left
            intro f hfm
            split
            · rename_i e
              unfold decided
              rw [e, hj]
              dsimp only
              have hv' : verdict soft wall now j.state f.date = some st := by rw [hu f hfm e]; exact hv
              rw [hv', ← e]
              rfl
            · rfl
    have hjid : ∀ f, (decided soft wall now db f).jid = f.jid := by
      intro f
      unfold decided
      split <;> rfl
    have hnd : ((sarkoTimer soft wall now db i).frags.map FragRow.jid).Nodup := by
      rw [hone, List.map_map]
      rw [show (FragRow.jid ∘ fun f => if f.jid = i then decided soft wall now db f else f) = FragRow.jid by
        funext f
        simp only [Function.comp]
        split
        · exact hjid f
        · rfl]
      exact hd
    rw [List.foldl_cons, sarkoFold_frags soft wall now l _ hl.2 hnd, hone, List.map_map]
    have hdec : ∀ f, decided soft wall now (sarkoTimer soft wall now db i) f = decided soft wall now db f := by
      intro f
      unfold decided DB.job?
      rw [(sarkoTimer_jobs soft wall now db i).1]
    apply List.map_congr_left
    intro f _
    simp only [Function.comp, List.mem_cons]
    by_cases e : f.jid = i
    · rw [if_pos e, if_pos (Or.inl e), if_neg]
      rw [hjid, e]
      exact hl.1
    · rw [if_neg e]
      by_cases e2 : f.jid ∈ l
      · rw [if_pos e2, if_pos (Or.inr e2), hdec]
      · rw [if_neg e2, if_neg (fun h => h.elim e e2)]

theorem withFrag_nodup {db : DB} (h : (db.jobs.map JobRow.id).Pairwise (· < ·)) (st : String) : (withFrag db st).Nodup := by
  unfold withFrag
  have : ((db.jobs.filter (fun j => db.frags.any (fun f => f.jid == j.id && f.state == st))).map JobRow.id).Sublist
      (db.jobs.map JobRow.id) := List.filter_sublist.map _
  exact (h.imp (fun h => Nat.ne_of_lt h)).sublist this

theorem fmicro_sarkoJob (w : World) (now : Int) (db : DB) (jid : Nat) : FMicro db (sarkoJob w now db jid) := by
  unfold sarkoJob
  split
  · exact .same rfl
  · split
    · exact .trans (fmicro_fragJob db now jid _) (.same rfl)
    split
    · exact .same rfl
    · exact .same rfl

theorem fmicro_foldl {α : Type} (f : DB → α → DB) (hf : ∀ db x, FMicro db (f db x)) :
    ∀ (l : List α) (db : DB), FMicro db (l.foldl f db)
  | [], _ => .same rfl
  | x :: xs, db => .trans (hf db x) (fmicro_foldl f hf xs (f db x))

/-- The requests after a run of Sarko: the decisions on the armed timers, then new requests. -/
theorem sarkoRun_frags (w : World) (soft wall now : Int) {db : DB} (hi : (db.jobs.map JobRow.id).Pairwise (· < ·))
    (hd : (db.frags.map FragRow.jid).Nodup) : ∃ new, (sarkoRun w soft wall now db).frags =
      db.frags.map (fun f => if f.jid ∈ withFrag db "TIMER_ARMED" then decided soft wall now db f else f) ++ new ∧
      (∀ f ∈ new, f.state = "LEON") ∧ ((sarkoRun w soft wall now db).frags.map FragRow.jid).Nodup := by
  unfold sarkoRun
  dsimp only
  have h1 := sarkoFold_frags soft wall now (withFrag db "TIMER_ARMED") db (withFrag_nodup hi _) hd
  have hfm := fmicro_foldl _ (fmicro_sarkoJob w now)
    (runningIds ((withFrag db "TIMER_ARMED").foldl (sarkoTimer soft wall now) db))
    ((withFrag db "TIMER_ARMED").foldl (sarkoTimer soft wall now) db)
  obtain ⟨new, e, p⟩ := hfm.rows
  refine ⟨new, by rw [e, h1], p, hfm.nodup ?_⟩
  rw [h1, List.map_map]
  rw [show (FragRow.jid ∘ fun f => if f.jid ∈ withFrag db "TIMER_ARMED" then decided soft wall now db f else f) = FragRow.jid by
    funext f
    simp only [Function.comp]
    split
    · unfold decided
      split <;> rfl
    · rfl]
  exact hd

theorem markAll_jids (l : List Nat) (st : String) (fs : List FragRow) : (markAll l st fs).map FragRow.jid = fs.map FragRow.jid := by
  unfold markAll
  rw [List.map_map]
  apply List.map_congr_left
  intro f _
  simp only [Function.comp]
  split <;> rfl

/-! ## The histories -/

/-- At most one request for each job. -/
theorem Step.frags_nodup {now : Int} {db db' : DB} (hs : Step now db db') (hi : Inv now db)
    (hd : (db.frags.map FragRow.jid).Nodup) : (db'.frags.map FragRow.jid).Nodup := by
  have same : db'.frags = db.frags → (db'.frags.map FragRow.jid).Nodup := fun h => by rw [h]; exact hd
  cases hs with
  | submit j hid hres hst => exact hd
  | setState jid st hst hg => exact same (frags_setJobState _ _ _ _)
  | columns jid f hf => exact hd
  | frag jid user => exact (fmicro_fragJob db now jid user).nodup hd
  | hold al jid r u => exact same (frags_holdJob _ _ _ _ _)
  | resume al jid u => exact same (frags_resumeJob _ _ _ _)
  | checkpoint jid s u => exact same (frags_askCheckpoint _ _ _ _)
  | leon w => rw [leonRun_frags, markAll_jids]; exact hd
  | exterminate w jid =>
    unfold leonExterminate
    split
    · rw [frags_finishing]
      unfold setFrag
      rw [List.map_map]
      rw [show (FragRow.jid ∘ fun f => if f.jid = jid then { f with state := "TIMER_ARMED" } else f) = FragRow.jid by
        funext f
        simp only [Function.comp]
        split <;> rfl]
      exact hd
    · exact hd
  | sarko w s wl =>
    obtain ⟨_, _, _, h⟩ := sarkoRun_frags w s wl now hi.ids hd
    exact h
  | jobEnd kc extra jid exit error => exact same (frags_checkEnd _ _ _ _ _ _ _)
  | event ty jid hosts => exact same rfl
  | events _ env hs hnow h => exact (fmicro_ncsLoop _ h).nodup hd

theorem History.frags_nodup {t : Int} {db : DB} (h : History t db) : (db.frags.map FragRow.jid).Nodup := by
  induction h with
  | start t h => simp
  | step t now db db' h hle hs ih => exact hs.frags_nodup (h.inv.mono hle) ih

end Oar.Jobs
