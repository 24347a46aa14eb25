import Verif.BipbipReport

/-!
# Launches in the histories; disagreements with the expected behaviour
-/

namespace Oar.Bipbip

open Oar.Jobs

/-! ## The launches are histories -/

theorem hist_mono {t t' : Int} {db : DB} (h : History t db) (hle : t ≤ t') : History t' db := by
  have e : db.updJob 0 (fun j => j) = db := by
    unfold DB.updJob
    simp
  have := History.step t t' db _ h hle (.columns db 0 (fun j => j) (fun _ => ⟨rfl, rfl, rfl⟩))
  rw [e] at this
  exact this

theorem hist_event {t : Int} {db : DB} (h : History t db) (ty : String) (jid : Nat) : History t (addEvent db ty jid) :=
  .step t t db _ h (Int.le_refl t) (.event db ty jid [])

theorem hist_eventHosts {t : Int} {db : DB} (h : History t db) (ty : String) (jid : Nat) (hs : List String) :
    History t (addEventHosts db ty jid hs) := .step t t db _ h (Int.le_refl t) (.event db ty jid hs)

theorem hist_endMarks {t : Int} {db : DB} (h : History t db) (jid : Nat) (exit : Option Int) : History t (endMarks db t jid exit) := by
  have h1 : History t (setJobState (setFinish db t jid) t jid "Finishing") := by
    refine .step t t _ _ (.step t t db _ h (Int.le_refl t) (.columns db jid (fun j => { j with stop := if t < j.start then j.start else t }) (fun _ => ⟨rfl, rfl, rfl⟩))) (Int.le_refl t)
      (.setState _ jid "Finishing" (by decide) (fun _ _ _ _ => Or.inr rfl))
  unfold endMarks
  cases exit with
  | none => exact h1
  | some c => exact .step t t _ _ h1 (Int.le_refl t) (.columns _ jid (fun j => { j with exitCode := some c }) (fun _ => ⟨rfl, rfl, rfl⟩))

/-- The events of the finishing sequence as the model of the histories wants them. -/
def extraOf : List (String × HostArg) → List (String × List String)
  | [] => []
  | (ty, .pair) :: l => (ty, []) :: extraOf l
  | (ty, .hosts hs) :: l => (ty, hs) :: extraOf l
  | (_, .nothing) :: _ => []

theorem register_extra (jid : Nat) : ∀ (l : List (String × HostArg)) (db : DB),
    (register jid l db).1 = (extraOf l).foldl (fun d e => addEventHosts d e.1 jid e.2) db
  | [], _ => rfl
  | (_, .pair) :: l, db => by
    rw [register, register_extra jid l]
    rfl
  | (_, .hosts _) :: l, db => by
    rw [register, register_extra jid l]
    rfl
  | (_, .nothing) :: _, _ => rfl

theorem register_pairs (jid : Nat) : ∀ (evs : List String) (l : List (String × HostArg)) (db : DB),
    register jid (evs.map (fun e => (e, HostArg.pair)) ++ l) db = register jid l (evs.foldl (fun d e => addEvent d e jid) db)
  | [], _, _ => rfl
  | e :: es, l, db => by
    rw [List.map_cons, List.cons_append, register, register_pairs jid es l]
    rfl

/-- The concrete end of an execution is one of those of the histories. -/
theorem endOfJob_checkEnd {w : EndWorld} {db : DB} {now : Int} {kc : Bool} {jid : Nat} {exit : Option Int} {error : Int}
    {hosts : List String} (hh : ¬ (namesHost error = true ∧ hosts = [])) :
    ∃ extra, (endOfJob w db now kc jid exit error hosts).1 = checkEnd db now kc extra jid exit error := by
  unfold endOfJob checkEnd
  cases hj : db.job? jid with
  | none => exact ⟨[], rfl⟩
  | some j =>
    dsimp only
    split
    · rename_i he
      refine ⟨extraOf (epilogueEvents w.epilogue ++ cleanEvents w j.types ++ pingEvents w j.types), ?_⟩
      unfold finishSeq
      rw [List.append_assoc, List.append_assoc, register_pairs, register_extra]
      unfold finishing endMarks
      cases exit with
      | none => rw [List.append_assoc]
      | some c => rw [List.append_assoc]
    · exact ⟨[], rfl⟩

theorem hist_endOfJob {t : Int} {db : DB} (h : History t db) (w : EndWorld) (kc : Bool) (jid : Nat) (exit : Option Int)
    (error : Int) (hosts : List String) : History t (endOfJob w db t kc jid exit error hosts).1 := by
  by_cases hh : namesHost error = true ∧ hosts = []
  · unfold endOfJob
    cases hj : db.job? jid with
    | none => exact h
    | some j =>
      dsimp only
      split
      · exact hist_endMarks h jid exit
      · exact h
  · obtain ⟨extra, e⟩ := @endOfJob_checkEnd w db t kc jid exit error hosts hh
    rw [e]
    exact .step t t db _ h (Int.le_refl t) (.jobEnd db kc extra jid exit error)

theorem hist_checkNodes {t : Int} {db : DB} (h : History t db) (w : World) (j : JobRow) : History t (checkNodes w db j).db := by
  have hc : History t (cpusetPart w db j).db := by
    unfold cpusetPart
    repeat' split
    all_goals first | exact h | exact hist_event h _ _ | exact hist_eventHosts h _ _ _
  have hj : ∀ acts hosts bad ev, History t (judge (cpusetPart w db j).db acts hosts j bad ev).db := by
    intro acts hosts bad ev
    unfold judge
    repeat' split
    all_goals first | exact hc | exact hist_eventHosts hc _ _ _
  unfold checkNodes
  split
  · dsimp only
    split <;> exact hj _ _ _ _
  · exact h

theorem hist_prologue {t : Int} {db : DB} (h : History t db) (r : Script) (jid : Nat) : History t (prologueDb r db jid) := by
  unfold prologueDb
  split
  · exact hist_event h _ _
  · exact hist_event h _ _
  · exact h

/-- A run of bipbip continues the history of the database: all the properties of the histories hold after it. -/
theorem run_history {w : World} (ha : w.Alone) {t : Int} {db : DB} (h : History t db) (h1 : t ≤ w.now1) (h2 : w.now1 ≤ w.now2)
    (jid : Nat) (a : Args) : History w.now2 (run w db jid a).db := by
  have hm := hist_mono h (Int.le_trans h1 h2)
  rcases run_cases w db jid a with ⟨e, _⟩ | ⟨e, _⟩ | ⟨k, e', _, hk, _, hs, e⟩ | ⟨j, h0, hj, hst, e⟩
  · rw [e]; exact hm
  · rw [e]; exact hm
  · rw [e]
    unfold reattach
    split
    · exact hm
    · exact hm
    · split
      · exact hist_mono (hist_endOfJob (hist_mono h h1) _ _ _ _ _ _) h2
      · split
        · exact hm
        · exact hist_event hm _ _
  · rw [e]
    have hid : j.id = jid := (job?_some hj).2
    have hL : (setJobState db w.now1 jid "Launching").job? jid = some (withState "Launching" j) :=
      job?_setJobState hj (by rw [hst]; decide) w.now1 (by rw [hst]; decide)
    have hH : History w.now1 (setJobState db w.now1 jid "Launching") := by
      refine .step t w.now1 db _ h h1 (.setState db jid "Launching" (by decide) ?_)
      intro k hk hkid hf
      have : k = j := inj_of_sorted h.inv.ids k hk j (job?_some hj).1 (by rw [hkid, hid])
      rw [this, hst] at hf
      exact absurd hf (by decide)
    have hC : History w.now1 (checkNodes w (w.env 1 (setJobState db w.now1 j.id "Launching")) j).db := by
      rw [ha, hid]; exact hist_checkNodes hH w j
    have hc : (checkNodes w (w.env 1 (setJobState db w.now1 j.id "Launching")) j).db.job? jid = some (withState "Launching" j) := by
      rw [checkNodes_job, ha, hid]; exact hL
    unfold launchJob
    dsimp only
    generalize checkNodes w (w.env 1 (setJobState db w.now1 j.id "Launching")) j = c at *
    cases hv : c.verdict with
    | stop => exact hist_mono hC h2
    | raise => exact hist_mono hC h2
    | go =>
      dsimp only
      unfold afterChecks
      dsimp only
      have hd : (w.env 4 (prologueDb w.prologue2 (w.env 3 (prologueDb w.prologue1 (w.env 2 c.db) j.id)) j.id)).job? jid =
          some (withState "Launching" j) := by
        rw [ha, prologueDb_job, ha, prologueDb_job, ha, hc]
      have hD : History w.now2 (w.env 4 (prologueDb w.prologue2 (w.env 3 (prologueDb w.prologue1 (w.env 2 c.db) j.id)) j.id)) := by
        rw [ha, ha, ha]
        exact hist_mono (hist_prologue (hist_prologue hC _ _) _ _) h2
      generalize w.env 4 (prologueDb w.prologue2 (w.env 3 (prologueDb w.prologue1 (w.env 2 c.db) j.id)) j.id) = d at *
      have hR : History w.now2 (setJobState d w.now2 j.id "Running") := by
        refine .step w.now2 w.now2 d _ hD (Int.le_refl _) (.setState d j.id "Running" (by decide) ?_)
        intro k hk hkid hf
        obtain ⟨hm1, hm2⟩ := job?_some hd
        have : k = withState "Launching" j := inj_of_sorted hD.inv.ids k hk _ hm1 (by rw [hkid, hm2, hid])
        rw [this] at hf
        exact absurd hf (show "Launching" ≠ "Finishing" by decide)
      unfold launch
      split
      · exact hR
      · split
        · exact hR
        · exact hist_endOfJob hD _ _ _ _ _ _

/-! ## The treatment of the events does not change the kind of a job -/

/-- Every job keeps its reservation column. -/
def SameRes (db db' : DB) : Prop := ∀ i k, db.job? i = some k → ∃ k', db'.job? i = some k' ∧ k'.reservation = k.reservation

theorem SameRes.refl (db : DB) : SameRes db db := fun _ k h => ⟨k, h, rfl⟩

theorem SameRes.trans {a b c : DB} (h1 : SameRes a b) (h2 : SameRes b c) : SameRes a c := by
  intro i k h
  obtain ⟨k1, e1, r1⟩ := h1 i k h
  obtain ⟨k2, e2, r2⟩ := h2 i k1 e1
  exact ⟨k2, e2, r2.trans r1⟩

theorem sameRes_jobs {db db' : DB} (h : db'.jobs = db.jobs) : SameRes db db' := by
  intro i k hk
  refine ⟨k, ?_, rfl⟩
  unfold DB.job? at hk ⊢
  rw [h]; exact hk

theorem sameRes_updJob (db : DB) (jid : Nat) (f : JobRow → JobRow) (hf : ∀ j, (f j).id = j.id)
    (hr : ∀ j, (f j).reservation = j.reservation) : SameRes db (db.updJob jid f) := by
  intro i k hk
  by_cases hi : jid = i
  · subst hi
    refine ⟨f k, ?_, hr k⟩
    rw [job?_updJob_same f hf, hk]
    rfl
  · exact ⟨k, by rw [job?_updJob_other hi f hf]; exact hk, rfl⟩

theorem sameRes_setJobState (db : DB) (now : Int) (jid : Nat) (st : String) : SameRes db (setJobState db now jid st) := by
  rcases setJobState_cases db now jid st with e | ⟨_, _, _, _, e⟩
  · rw [e]; exact .refl db
  · rw [e]
    exact .trans (sameRes_updJob db jid (withState st) (withState_id st) (fun _ => rfl)) (sameRes_jobs rfl)

theorem sameRes_resubmit (db : DB) (now : Int) (kc : Bool) (user : String) (jid : Nat) :
    SameRes db (resubmitJob db now kc user jid).2.1 := fun _ k h => ⟨k, job?_resubmit h, rfl⟩

theorem sameRes_ite {c : Prop} [Decidable c] {a b db : DB} (h1 : SameRes db a) (h2 : SameRes db b) : SameRes db (if c then a else b) := by
  split
  · exact h1
  · exact h2

theorem sameRes_fragJob (db : DB) (now : Int) (jid : Nat) (user : String) : SameRes db (fragJob db now jid user).2 := by
  apply sameRes_jobs
  unfold fragJob
  repeat' split
  all_goals rfl

theorem sameRes_suspendAction (db : DB) (now : Int) (jid : Nat) : SameRes db (suspendAction db now jid) :=
  .trans (sameRes_setJobState db now jid _) (sameRes_updJob _ jid _ (fun _ => rfl) (fun _ => rfl))

theorem sameRes_ncsEvent {env : Env} {db db' : DB} {ev : Event} {hs : List (String × Bool)}
    (h : ncsEvent env db ev = some (db', hs)) : SameRes db db' := by
  unfold ncsEvent at h
  cases hj : db.job? ev.jid with
  | none =>
    rw [hj] at h
    dsimp only at h
    split at h
    · exact absurd h (by simp)
    · rw [← (Prod.mk.inj (Option.some.inj h)).1]
      exact sameRes_jobs rfl
  | some j =>
    rw [hj] at h
    dsimp only at h
    have s1 : SameRes db (ncs1 env db ev j) := by
      unfold ncs1
      exact sameRes_ite (sameRes_resubmit _ _ _ _ _) (.refl _)
    have s2 : ∀ d, SameRes d (ncs2 env d ev j) := by
      intro d
      unfold ncs2
      dsimp only
      refine .trans (.trans ?_ (sameRes_ite (sameRes_setJobState _ _ _ _) (.refl _)))
        (sameRes_ite (sameRes_setJobState _ _ _ _) (.refl _))
      exact sameRes_ite (sameRes_setJobState _ _ _ _) (sameRes_ite (sameRes_setJobState _ _ _ _) (.refl _))
    have s3 : ∀ d, SameRes d (ncs3 env d ev j) := by
      intro d
      unfold ncs3
      dsimp only
      refine .trans (sameRes_ite (sameRes_setJobState _ _ _ _) (.refl _)) (sameRes_ite ?_ (.refl _))
      exact .trans (sameRes_resubmit _ _ _ _ _) (sameRes_jobs rfl)
    have ss : ∀ d, SameRes d (suspendJob env d j) := by
      intro d
      unfold suspendJob
      cases env.suspend with
      | noCpuset => exact .refl d
      | noNodes => exact .refl d
      | badFile => exact sameRes_jobs rfl
      | done => exact sameRes_suspendAction _ _ _
      | scriptError =>
        exact .trans (.trans (sameRes_suspendAction d env.now j.id)
          (sameRes_jobs (db' := addEvent (suspendAction d env.now j.id) "SUSPEND_SCRIPT_ERROR" j.id) rfl))
          (sameRes_setJobState _ _ _ _)
      | badNodes hosts =>
        exact .trans (sameRes_jobs (db' := addEventHosts d "SUSPEND_ERROR" j.id hosts) rfl) (sameRes_fragJob _ _ _ _)
    have s4 : ∀ d d', ncs4 env d ev j = some d' → SameRes d d' := by
      intro d d' hd
      unfold ncs4 at hd
      repeat' split at hd
      all_goals first
        | (rw [← Option.some.inj hd]; first | exact sameRes_setJobState _ _ _ _ | exact ss d | exact .refl d)
        | cases hd
    split at h
    · exact absurd h (by simp)
    · split at h
      · exact absurd h (by simp)
      · rename_i hosts finaud logged _ _ d4 hd4
        rw [← (Prod.mk.inj (Option.some.inj h)).1]
        refine .trans (.trans (.trans (.trans (.trans s1 (s2 _)) ?_) (s3 _)) (s4 _ _ hd4)) (sameRes_jobs rfl)
        split
        · exact sameRes_jobs rfl
        · exact .refl _

/-- When the events are treated, a job without reservation that has an event of nodes not answering or without cpuset to be
treated is in an ended state afterwards, whatever the other events are; in every history. -/
theorem suspect_event_ends {t : Int} {db db' : DB} (hh : History t db) {env : Env} (hle : t ≤ env.now) {hs : List (String × Bool)}
    (h : ncsEvents env db = some (db', hs)) {ev : Event} (hev : ev ∈ db.events) (hc : ev.toCheck = true)
    (hty : ev.type = "PING_CHECKER_NODE_SUSPECTED" ∨ ev.type = "CPUSET_ERROR") {j0 : JobRow} (hj0 : db.job? ev.jid = some j0)
    (hres : j0.reservation = "None") : ∃ j ∈ db'.jobs, j.id = ev.jid ∧ Ended j.state := by
  have hpos : 0 < env.now := by have := hh.pos; omega
  have loop : ∀ (evs : List Event) (db db' : DB) (hs : List (String × Bool)) (j0 : JobRow), Inv env.now db → ev ∈ evs →
      db.job? ev.jid = some j0 → j0.reservation = "None" → ncsLoop env evs db = some (db', hs) →
      ∃ j ∈ db'.jobs, j.id = ev.jid ∧ Ended j.state := by
    intro evs
    induction evs with
    | nil => intro _ _ _ _ _ hm; simp at hm
    | cons e evs ih =>
      intro db db' hs j0 hi hm hj0 hres hl
      unfold ncsLoop at hl
      cases he : ncsEvent env db e with
      | none => rw [he] at hl; exact absurd hl (by simp)
      | some v =>
        obtain ⟨d1, h1⟩ := v
        rw [he] at hl
        dsimp only at hl
        have m1 := micro_ncsEvent hi he
        have hi1 := m1.inv hpos hi
        cases hl2 : ncsLoop env evs d1 with
        | none => rw [hl2] at hl; exact absurd hl (by simp)
        | some v2 =>
          obtain ⟨d2, h2⟩ := v2
          rw [hl2] at hl
          dsimp only at hl
          rw [← (Prod.mk.inj (Option.some.inj hl)).1]
          rcases List.mem_cons.1 hm with e1 | e1
          · have m2 := micro_ncsLoop hpos evs hi1 hl2
            have hj? : db.job? e.jid = some j0 := by rw [← e1]; exact hj0
            have hsend : Sends e.type j0 "Error" := by
              rw [← e1]
              rcases hty with h | h <;> rw [h]
              · exact .ping j0 (Or.inl hres)
              · exact .cpuset j0 (Or.inl hres)
            have hnh : ¬ IsHold e.type := by
              rw [← e1]
              rcases hty with h | h <;> rw [h] <;> unfold IsHold <;> decide
            have hstate := (event_state hj? hnh he).1 "Error" hsend
            have hE : Ended (if j0.state ∈ aliveStates then "Error" else j0.state) := by
              split
              · exact Or.inr rfl
              · rename_i hna
                exact (allStates_cases (hi.valid j0 (job?_some hj?).1)).resolve_left hna
            unfold DB.stateOf at hstate
            cases hd : d1.job? e.jid with
            | none => rw [hd] at hstate; exact absurd hstate (by simp)
            | some k =>
              rw [hd] at hstate
              obtain ⟨hk1, hk2⟩ := job?_some hd
              have hks : k.state = (if j0.state ∈ aliveStates then "Error" else j0.state) := Option.some.inj hstate
              obtain ⟨l, hl1, hl3, hl4⟩ := m2.keeps hpos hi1 k hk1 (hks ▸ hE)
              exact ⟨l, hl1, by rw [hl3, hk2, e1], by rw [hl4, hks]; exact hE⟩
          · obtain ⟨k, hk, hr⟩ := sameRes_ncsEvent he _ _ hj0
            exact ih d1 d2 h2 k hi1 e1 hk (hr.trans hres) hl2
  exact loop _ db db' hs j0 (hh.inv.mono hle) (List.mem_filter.2 ⟨hev, hc⟩) hj0 hres h

/-- A launch that fails without an exception ends the job: once the events are treated, the job is Terminated or in Error.
The exceptions are those of `failed_launch_reported_partial`. -/
theorem failed_launch_ends_partial {w : World} (ha : w.Alone) {t : Int} {db : DB} (hh : History t db) (h1 : t ≤ w.now1)
    (h2 : w.now1 ≤ w.now2) {jid : Nat} {j : JobRow} (h0 : jid ≠ 0) (hj : db.job? jid = some j) (hst : j.state = "toLaunch")
    (a : Args) (hr : (run w db jid a).raised = false) (hnr : (run w db jid a).db.stateOf jid ≠ some "Running") {env : Env}
    (hle : w.now2 ≤ env.now) {db' : DB} {hs : List (String × Bool)} (hev : ncsEvents env (run w db jid a).db = some (db', hs)) :
    ∃ k ∈ db'.jobs, k.id = jid ∧ Ended k.state := by
  have hH := run_history ha hh h1 h2 jid a
  obtain ⟨r1, r2⟩ := failed_launch_reported_partial ha h0 hj hst a hr
  rcases launch_outcome ha h0 hj hst a with ⟨e, _⟩ | ⟨e, _⟩ | ⟨e, _⟩
  · exact absurd e hnr
  · obtain ⟨ev, hm, hjid, hc, hty⟩ := r2 e
    unfold DB.stateOf at e
    cases hk : (run w db jid a).db.job? jid with
    | none => rw [hk] at e; exact absurd e (by simp)
    | some k =>
      obtain ⟨hk1, hk2⟩ := job?_some hk
      have := end_event_ends hH hle hev hm hc (by rw [hty]; decide) ⟨k, hk1, by rw [hjid, hk2]⟩
      rw [hjid] at this
      exact this
  · obtain ⟨_, hres, ev, hm, hjid, hc, _, hty⟩ := r1 e
    have hrow : ∃ k, (run w db jid a).db.job? jid = some k ∧ k.reservation = "None" := by
      have hid : j.id = jid := (job?_some hj).2
      have hL : (setJobState db w.now1 jid "Launching").job? jid = some (withState "Launching" j) :=
        job?_setJobState hj (by rw [hst]; decide) w.now1 (by rw [hst]; decide)
      have hc : (checkNodes w (w.env 1 (setJobState db w.now1 j.id "Launching")) j).db.job? jid = some (withState "Launching" j) := by
        rw [checkNodes_job, ha, hid]; exact hL
      have hno : ¬ (checkNodes w (w.env 1 (setJobState db w.now1 j.id "Launching")) j).verdict = .go := by
        intro hv
        have hx : (run w db jid a).db.stateOf jid = some "Running" ∨ (run w db jid a).db.stateOf jid = some "Finishing" := by
          rw [run_toLaunch h0 hj hst a]
          unfold launchJob
          dsimp only
          generalize checkNodes w (w.env 1 (setJobState db w.now1 j.id "Launching")) j = c at *
          rw [hv]
          dsimp only
          unfold afterChecks
          dsimp only
          have hd : (w.env 4 (prologueDb w.prologue2 (w.env 3 (prologueDb w.prologue1 (w.env 2 c.db) j.id)) j.id)).job? jid =
              some (withState "Launching" j) := by
            rw [ha, prologueDb_job, ha, prologueDb_job, ha, hc]
          generalize w.env 4 (prologueDb w.prologue2 (w.env 3 (prologueDb w.prologue1 (w.env 2 c.db) j.id)) j.id) = d at *
          have hR : (setJobState d w.now2 j.id "Running").job? jid = some (withState "Running" (withState "Launching" j)) := by
            rw [hid]
            exact job?_setJobState hd (show "Launching" ∈ aliveStates by decide) _ (show "Launching" ≠ "Running" by decide)
          unfold launch DB.stateOf
          split
          · exact Or.inl (by dsimp only; rw [hR]; rfl)
          · split
            · exact Or.inl (by dsimp only; rw [hR]; rfl)
            · exact Or.inr (by dsimp only; rw [hid, endOfJob_job hd (Or.inr (Or.inl rfl))]; rfl)
        rcases hx with hx | hx <;> rw [hx] at e <;> exact absurd (Option.some.inj e) (by decide)
      refine ⟨withState "Launching" j, ?_, hres⟩
      rw [run_toLaunch h0 hj hst a]
      unfold launchJob
      dsimp only
      generalize checkNodes w (w.env 1 (setJobState db w.now1 j.id "Launching")) j = c at *
      cases hv : c.verdict with
      | go => exact absurd hv hno
      | stop => exact hc
      | raise => exact hc
    obtain ⟨k, hk, hkr⟩ := hrow
    have hty' : ev.type = "PING_CHECKER_NODE_SUSPECTED" ∨ ev.type = "CPUSET_ERROR" := by
      rcases hty with h | h
      · exact Or.inl h.1
      · exact Or.inr h.1
    have := suspect_event_ends hH hle hev hm hc hty' (by rw [hjid]; exact hk) hkr
    rw [hjid] at this
    exact this

end Oar.Bipbip
