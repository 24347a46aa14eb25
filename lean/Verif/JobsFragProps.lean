import Verif.JobsFrag

/-!
# C25 and C26: escalation of the deletions, walltime
-/

namespace Oar.Jobs

/-! ## C25 -/

/-- The possible changes of the state of a deletion request. -/
inductive FragEdge : String → String → Prop
  | stay (s : String) : FragEdge s s
  | arm : FragEdge "LEON" "TIMER_ARMED"
  | retry : FragEdge "TIMER_ARMED" "LEON"
  | exterminate : FragEdge "TIMER_ARMED" "LEON_EXTERMINATE"
  | rearm : FragEdge "LEON_EXTERMINATE" "TIMER_ARMED"
  | fragged : FragEdge "TIMER_ARMED" "FRAGGED"

theorem frag_of_jid {fs : List FragRow} (hd : (fs.map FragRow.jid).Nodup) {f g : FragRow} (hf : f ∈ fs) (hg : g ∈ fs)
    (h : f.jid = g.jid) : f = g := by
  have h1 := find_nodup hd hf
  have h2 := find_nodup hd hg
  rw [h, h2] at h1
  exact (Option.some.inj h1).symm

theorem verdict_edge {soft wall now : Int} {st : String} {date : Int} {v : String}
    (h : verdict soft wall now st date = some v) : FragEdge "TIMER_ARMED" v := by
  unfold verdict at h
  split at h
  · rw [← Option.some.inj h]; exact .fragged
  split at h
  · rw [← Option.some.inj h]; exact .retry
  split at h
  · rw [← Option.some.inj h]; exact .exterminate
  · exact absurd h (by simp)

/-- A deletion request is never removed, its date never changes, and in one step its state changes at most along one of the
edges LEON → TIMER_ARMED, TIMER_ARMED → LEON, LEON_EXTERMINATE or FRAGGED, LEON_EXTERMINATE → TIMER_ARMED. -/
theorem frag_step {t now : Int} {db db' : DB} (h : History t db) (hs : Step now db db') :
    ∀ f ∈ db.frags, ∃ f' ∈ db'.frags, f'.jid = f.jid ∧ f'.date = f.date ∧ FragEdge f.state f'.state := by
  intro f hf
  have hd := h.frags_nodup
  have hi := h.inv
  have same : db'.frags = db.frags → ∃ f' ∈ db'.frags, f'.jid = f.jid ∧ f'.date = f.date ∧ FragEdge f.state f'.state :=
    fun e => ⟨f, by rw [e]; exact hf, rfl, rfl, .stay _⟩
  have fm : FMicro db db' → ∃ f' ∈ db'.frags, f'.jid = f.jid ∧ f'.date = f.date ∧ FragEdge f.state f'.state := by
    intro hm
    obtain ⟨new, e, _⟩ := hm.rows
    exact ⟨f, by rw [e]; exact List.mem_append_left _ hf, rfl, rfl, .stay _⟩
  cases hs with
  | submit j hid hres hst => exact same rfl
  | setState jid st hst hg => exact same (frags_setJobState _ _ _ _)
  | columns jid f hf => exact same rfl
  | frag jid user => exact fm (fmicro_fragJob db now jid user)
  | hold al jid r u => exact same (frags_holdJob _ _ _ _ _)
  | resume al jid u => exact same (frags_resumeJob _ _ _ _)
  | checkpoint jid s u => exact same (frags_askCheckpoint _ _ _ _)
  | leon w =>
    rw [leonRun_frags]
    unfold markAll
    refine ⟨_, List.mem_map_of_mem (f := fun f => if f.jid ∈ toKill db then { f with state := "TIMER_ARMED" } else f) hf, ?_⟩
    split
    · rename_i hk
      obtain ⟨j, _, _, _, g, hg, hg1, hg2⟩ := mem_toKill.1 hk
      rw [frag_of_jid hd hg hf hg1] at hg2
      refine ⟨rfl, rfl, ?_⟩
      rw [hg2]
      exact .arm
    · exact ⟨rfl, rfl, .stay _⟩
  | exterminate w jid =>
    unfold leonExterminate
    split
    · rename_i hx
      rw [frags_finishing]
      refine ⟨_, List.mem_map_of_mem (f := fun f => if f.jid = jid then { f with state := "TIMER_ARMED" } else f) hf, ?_⟩
      split
      · rename_i hk
        unfold fragState at hx
        have := find_nodup hd hf
        rw [hk] at this
        rw [this] at hx
        refine ⟨rfl, rfl, ?_⟩
        rw [show f.state = "LEON_EXTERMINATE" by simpa using hx]
        exact .rearm
      · exact ⟨rfl, rfl, .stay _⟩
    · exact ⟨f, hf, rfl, rfl, .stay _⟩
  | sarko w s wl =>
    obtain ⟨new, e, _, _⟩ := sarkoRun_frags w s wl now hi.ids hd
    rw [e]
    refine ⟨_, List.mem_append_left _ (List.mem_map_of_mem
      (f := fun f => if f.jid ∈ withFrag db "TIMER_ARMED" then decided s wl now db f else f) hf), ?_⟩
    split
    · rename_i hk
      obtain ⟨_, g, hg, hg1, hg2⟩ := mem_withFrag.1 hk
      rw [frag_of_jid hd hg hf hg1] at hg2
      unfold decided
      split
      · rename_i j hj
        refine ⟨rfl, rfl, ?_⟩
        dsimp only
        cases hv : verdict s wl now j.state f.date with
        | none => exact .stay _
        | some v =>
          rw [hg2]
          exact verdict_edge hv
      · exact ⟨rfl, rfl, .stay _⟩
    · exact ⟨rfl, rfl, .stay _⟩
  | jobEnd kc extra jid exit error => exact same (frags_checkEnd _ _ _ _ _ _ _)
  | event ty jid hosts => exact same rfl
  | events _ env hs hnow h => exact fm (fmicro_ncsLoop _ h)

/-- There is at most one deletion request for each job: a job is not deleted twice. -/
theorem one_request {t : Int} {db : DB} (h : History t db) : ∀ f ∈ db.frags, ∀ g ∈ db.frags, f.jid = g.jid → f = g :=
  fun _ hf _ hg e => frag_of_jid h.frags_nodup hf hg e

/-- FRAGGED is final. -/
theorem fragged_final {t t' : Int} {db db' : DB} (h : History t db) (hl : Later t db t' db') {f : FragRow} (hf : f ∈ db.frags)
    (hst : f.state = "FRAGGED") : ∃ f' ∈ db'.frags, f'.jid = f.jid ∧ f'.date = f.date ∧ f'.state = "FRAGGED" := by
  induction hl with
  | refl => exact ⟨f, hf, rfl, rfl, hst⟩
  | step t' now db' db'' hl hle hs ih =>
    obtain ⟨g, hg, e1, e2, e3⟩ := ih
    obtain ⟨k, hk, d1, d2, d3⟩ := frag_step (hl.history h) hs g hg
    refine ⟨k, hk, by omega, by omega, ?_⟩
    rw [e3] at d3
    generalize k.state = s at d3
    generalize hx : ("FRAGGED" : String) = y at d3
    cases d3 with
    | stay => rfl
    | arm => exact absurd hx (by decide)
    | retry => exact absurd hx (by decide)
    | exterminate => exact absurd hx (by decide)
    | rearm => exact absurd hx (by decide)
    | fragged => exact absurd hx (by decide)

/-- What Sarko decides on a request whose timer is armed: FRAGGED exactly when the job is finishing or has ended; otherwise
nothing until the soft delay is over, then a new kill until the hard delay (at least ten seconds more), then the
extermination. -/
theorem sarko_exact {t : Int} {db : DB} (h : History t db) (w : World) (soft wall now : Int)
    {f : FragRow} (hf : f ∈ db.frags) (hst : f.state = "TIMER_ARMED") {j : JobRow} (hj : j ∈ db.jobs) (hid : j.id = f.jid) :
    ∃ f' ∈ (sarkoRun w soft wall now db).frags, f'.jid = f.jid ∧ f'.date = f.date ∧
      (f'.state = "FRAGGED" ↔ Done j.state) ∧
      (¬ Done j.state → now ≤ f.date + soft → f'.state = "TIMER_ARMED") ∧
      (¬ Done j.state → f.date + soft < now → now ≤ f.date + leonWalltime soft wall → f'.state = "LEON") ∧
      (¬ Done j.state → f.date + leonWalltime soft wall < now → f'.state = "LEON_EXTERMINATE") := by
  have hi := h.inv
  have hd := h.frags_nodup
  obtain ⟨new, e, _, _⟩ := sarkoRun_frags w soft wall now hi.ids hd
  have hjob : db.job? f.jid = some j := by rw [← hid]; exact job?_of_mem hi.ids hj
  have hmem : f.jid ∈ withFrag db "TIMER_ARMED" := mem_withFrag.2 ⟨⟨j, hj, hid⟩, f, hf, rfl, hst⟩
  refine ⟨decided soft wall now db f, ?_, ?_⟩
  · rw [e]
    refine List.mem_append_left _ (List.mem_map.2 ⟨f, hf, ?_⟩)
    rw [if_pos hmem]
  · have hw : soft < leonWalltime soft wall := by unfold leonWalltime; split <;> omega
    have hdone : (j.state = "Terminated" ∨ j.state = "Error" ∨ j.state = "Finishing") ↔ Done j.state := by
      unfold Done Ended
      constructor
      · rintro (h | h | h)
        · exact Or.inr (Or.inl h)
        · exact Or.inr (Or.inr h)
        · exact Or.inl h
      · rintro (h | h | h)
        · exact Or.inr (Or.inr h)
        · exact Or.inl h
        · exact Or.inr (Or.inl h)
    unfold decided
    rw [hjob]
    dsimp only
    unfold verdict
    by_cases hdn : Done j.state
    · rw [if_pos (hdone.2 hdn)]
      exact ⟨rfl, rfl, ⟨fun _ => hdn, fun _ => rfl⟩, fun h => absurd hdn h, fun h => absurd hdn h, fun h => absurd hdn h⟩
    · rw [if_neg (fun h => hdn (hdone.1 h))]
      by_cases h1 : now > f.date + soft ∧ now ≤ f.date + leonWalltime soft wall
      · rw [if_pos h1]
        refine ⟨rfl, rfl, ⟨fun h => absurd h (by decide : ("LEON" : String) ≠ "FRAGGED"), fun h => absurd h hdn⟩, fun _ _ => by omega, fun _ _ _ => rfl,
          fun _ _ => by omega⟩
      · rw [if_neg h1]
        by_cases h2 : now > f.date + leonWalltime soft wall
        · rw [if_pos h2]
          refine ⟨rfl, rfl, ⟨fun h => absurd h (by decide : ("LEON_EXTERMINATE" : String) ≠ "FRAGGED"), fun h => absurd h hdn⟩, fun _ _ => by omega, fun _ _ _ => by omega,
            fun _ _ => rfl⟩
        · rw [if_neg h2]
          refine ⟨rfl, rfl, ⟨fun h => ?_, fun h => absurd h hdn⟩, fun _ _ => hst, fun _ _ _ => by omega, fun _ _ => by omega⟩
          rw [Option.getD_none, hst] at h
          exact absurd h (by decide)

theorem leonWalltime_gt (soft wall : Int) : soft < leonWalltime soft wall := by unfold leonWalltime; split <;> omega

/-- What Leon does with a request in state LEON of a job that is not finishing and has not ended: the timer is armed. -/
theorem leon_exact {now : Int} {db : DB} (w : World)
    {f : FragRow} (hf : f ∈ db.frags) (hst : f.state = "LEON") {j : JobRow} (hj : j ∈ db.jobs) (hid : j.id = f.jid)
    (hd : ¬ Done j.state) : ∃ f' ∈ (leonRun w now db).frags, f'.jid = f.jid ∧ f'.date = f.date ∧ f'.state = "TIMER_ARMED" := by
  rw [leonRun_frags]
  unfold markAll
  refine ⟨_, List.mem_map_of_mem (f := fun f => if f.jid ∈ toKill db then { f with state := "TIMER_ARMED" } else f) hf, ?_⟩
  rw [if_pos (mem_toKill.2 ⟨j, hj, hid, hd, f, hf, rfl, hst⟩)]
  exact ⟨rfl, rfl, rfl⟩

theorem done_foldl {α : Type} {now : Int} (hpos : 0 < now) (f : DB → α → DB) (hf : ∀ db x, Micro now db (f db x))
    (l : List α) {db : DB} (hi : Inv now db) {i : Nat} (h : ∃ j ∈ db.jobs, j.id = i ∧ Done j.state) :
    ∃ j ∈ (l.foldl f db).jobs, j.id = i ∧ Done j.state := by
  obtain ⟨j, hj, e, hd⟩ := h
  obtain ⟨k, hk, e', hd'⟩ := (micro_foldl f hf l db).keepsDone hpos hi j hj hd
  exact ⟨k, hk, by omega, hd'⟩

/-- In a fold, a job treated ends up done if its treatment makes it so. -/
theorem done_of_mem {now : Int} (hpos : 0 < now) (f : DB → Nat → DB) (hf : ∀ db x, Micro now db (f db x)) {i : Nat}
    (hone : ∀ db, Inv now db → (∃ j ∈ db.jobs, j.id = i) → ∃ j ∈ (f db i).jobs, j.id = i ∧ Done j.state) :
    ∀ (l : List Nat) (db : DB), Inv now db → (∃ j ∈ db.jobs, j.id = i) → i ∈ l →
      ∃ j ∈ (l.foldl f db).jobs, j.id = i ∧ Done j.state
  | [], _, _, _, h => by simp at h
  | x :: xs, db, hi, hj, h => by
    rw [List.foldl_cons]
    have hi' := (hf db x).inv hpos hi
    by_cases e : x = i
    · subst e
      exact done_foldl hpos f hf xs hi' (hone db hi hj)
    · obtain ⟨j, hjm, hid⟩ := hj
      obtain ⟨k, hk, e'⟩ := (hf db x).keepsJob j hjm
      refine done_of_mem hpos f hf hone xs (f db x) hi' ⟨k, hk, by omega⟩ ?_
      rcases List.mem_cons.1 h with h | h
      · exact absurd h.symm e
      · exact h

theorem allStates_cases {st : String} (h : st ∈ allStates) : st ∈ aliveStates ∨ Ended st := by
  unfold Ended
  revert h
  unfold allStates aliveStates
  simp only [List.mem_cons, List.not_mem_nil, or_false]
  rintro (h | h | h | h | h | h | h | h | h | h | h | h) <;> simp [h]

theorem exterminateOne_done {now : Int} {db : DB} {i : Nat} (hi : Inv now db) (h : ∃ j ∈ db.jobs, j.id = i) :
    ∃ j ∈ (exterminateOne now db i).jobs, j.id = i ∧ Done j.state := by
  obtain ⟨j, hj, hid⟩ := h
  have hjob : db.job? i = some j := by rw [← hid]; exact job?_of_mem hi.ids hj
  have h1 : ∃ k ∈ (setJobState db now i "Finishing").jobs, k.id = i ∧ Done k.state := by
    rcases allStates_cases (hi.valid j hj) with hal | hend
    · by_cases hf : j.state = "Finishing"
      · rcases setJobState_cases db now i "Finishing" with e | ⟨i', h1, _, h3, _⟩
        · rw [e]; exact ⟨j, hj, hid, Or.inl hf⟩
        · rw [hjob] at h1
          rw [← Option.some.inj h1] at h3
          exact absurd hf h3
      · obtain ⟨⟨k, hk, e1, e2⟩, _⟩ := setJobState_alive hjob hal now "Finishing" hf
        exact ⟨k, hk, e1, Or.inl e2⟩
    · rw [setJobState_ended hjob hend]
      exact ⟨j, hj, hid, Or.inr hend⟩
  obtain ⟨k, hk, e1, e2⟩ := h1
  unfold exterminateOne setFinish
  have m1 := updJob_mem (jid := i) (f := fun j => if j.start = 0 then { j with start := now } else j) hk
  have m2 := updJob_mem (jid := i) (f := fun j => { j with stop := if now < j.start then j.start else now }) m1
  refine ⟨_, m2, ?_, ?_⟩
  · rw [if_pos e1]
    split
    · split <;> exact e1
    · split <;> exact e1
  · rw [if_pos e1]
    split
    · split <;> exact e2
    · split <;> exact e2

/-- The job of each request in state LEON_EXTERMINATE is finishing or has ended after a run of Leon. -/
theorem leon_exterminates {t now : Int} {db : DB} (h : History t db) (hle : t ≤ now) (w : World)
    {f : FragRow} (hf : f ∈ db.frags) (hst : f.state = "LEON_EXTERMINATE") {j : JobRow} (hj : j ∈ db.jobs) (hid : j.id = f.jid) :
    ∃ j' ∈ (leonRun w now db).jobs, j'.id = j.id ∧ Done j'.state := by
  have hpos : 0 < now := by have := h.pos; omega
  have hi := h.inv.mono hle
  unfold leonRun
  dsimp only
  have m1 := micro_foldl _ (micro_leonOne w now) (toKill db) db
  have hfr : ((toKill db).foldl (leonOne w now) db).frags = markAll (toKill db) "TIMER_ARMED" db.frags := by
    apply leonFold_frags
    intro i hi
    obtain ⟨j, hj, e, _⟩ := mem_toKill.1 hi
    exact ⟨j, hj, e⟩
  obtain ⟨k, hk, ek⟩ := m1.keepsJob j hj
  have hnot : f.jid ∉ toKill db := by
    intro hm
    obtain ⟨_, _, _, _, g, hg, hg1, hg2⟩ := mem_toKill.1 hm
    rw [frag_of_jid h.frags_nodup hg hf hg1, hst] at hg2
    exact absurd hg2 (by decide)
  refine done_of_mem hpos _ (micro_exterminateOne now) (fun db hi hx => exterminateOne_done hi hx) _ _ (m1.inv hpos hi)
    ⟨k, hk, ek⟩ ?_
  refine mem_withFrag.2 ⟨⟨k, hk, ek⟩, f, ?_, hid.symm, hst⟩
  rw [hfr]
  unfold markAll
  refine List.mem_map.2 ⟨f, hf, ?_⟩
  rw [if_neg hnot]

theorem job?_updJob_other {db : DB} {x i : Nat} (hne : x ≠ i) (f : JobRow → JobRow) (hf : ∀ j, (f j).id = j.id) :
    (db.updJob x f).job? i = db.job? i := by
  unfold DB.job? DB.updJob
  dsimp only
  induction db.jobs with
  | nil => rfl
  | cons a l ih =>
    rw [List.map_cons, List.find?_cons, List.find?_cons, ih]
    by_cases h : a.id = x
    · rw [if_pos h, hf]
      have : (a.id == i) = false := by simp; omega
      rw [this]
    · rw [if_neg h]

theorem job?_setJobState_other {db : DB} {x i : Nat} (hne : x ≠ i) (now : Int) (st : String) :
    (setJobState db now x st).job? i = db.job? i := by
  rcases setJobState_cases db now x st with e | ⟨_, _, _, _, e⟩
  · rw [e]
  · rw [e]
    exact job?_updJob_other hne (withState st) (withState_id st)

theorem finishing_jobs (db : DB) (jid : Nat) (evs : List String) (extra : List (String × List String)) :
    (finishing db jid evs extra).jobs = db.jobs := by
  unfold finishing
  have h1 : ∀ (l : List (String × List String)) (d : DB),
      (l.foldl (fun (d : DB) (e : String × List String) => addEventHosts d e.1 jid e.2) d).jobs = d.jobs := by
    intro l
    induction l with
    | nil => intro _; rfl
    | cons a l ih => intro d; rw [List.foldl_cons, ih]; rfl
  have h2 : ∀ (l : List String) (d : DB), (l.foldl (fun (d : DB) (e : String) => addEvent d e jid) d).jobs = d.jobs := by
    intro l
    induction l with
    | nil => intro _; rfl
    | cons a l ih => intro d; rw [List.foldl_cons, ih]; rfl
  rw [h1, h2]

theorem leonOne_other (w : World) (now : Int) (db : DB) {x i : Nat} (hne : x ≠ i) : (leonOne w now db x).job? i = db.job? i := by
  unfold leonOne
  cases hj : db.job? x with
  | none => rfl
  | some j =>
    have hid := (job?_some hj).2
    dsimp only
    show (leonAct w now db j).job? i = _
    unfold leonAct
    rw [hid]
    split
    · exact job?_setJobState_other hne now _
    split
    · rfl
    split
    · have : (finishing (setJobState (setFinish db now x) now x "Terminated") x [] (w.extra x)).job? i =
          (setJobState (setFinish db now x) now x "Terminated").job? i := by
        unfold DB.job?
        rw [finishing_jobs]
      rw [this, job?_setJobState_other hne]
      exact job?_updJob_other hne _ (fun _ => rfl)
    split
    · rfl
    · rfl

/-- A job that is waiting or held, or a noop job, and whose deletion is requested has ended after one run of Leon. -/
theorem leon_ends {t now : Int} {db : DB} (h : History t db) (hle : t ≤ now) (w : World)
    {f : FragRow} (hf : f ∈ db.frags) (hst : f.state = "LEON") {j : JobRow} (hj : j ∈ db.jobs) (hid : j.id = f.jid)
    (hd : ¬ Done j.state) (hw : j.state = "Waiting" ∨ j.state = "Hold" ∨ "noop" ∈ j.types) :
    ∃ j' ∈ (leonRun w now db).jobs, j'.id = j.id ∧ Ended j'.state := by
  have hpos : 0 < now := by have := h.pos; omega
  have hi := h.inv.mono hle
  have hmem : j.id ∈ toKill db := mem_toKill.2 ⟨j, hj, rfl, hd, f, hf, hid.symm, hst⟩
  have hjob : db.job? j.id = some j := job?_of_mem hi.ids hj
  have keep : ∀ {d d' : DB}, Micro now d d' → Inv now d → (∃ k ∈ d.jobs, k.id = j.id ∧ Ended k.state) →
      ∃ k ∈ d'.jobs, k.id = j.id ∧ Ended k.state := by
    rintro d d' hm hi ⟨k, hk, e, he⟩
    obtain ⟨m, hm', em, es⟩ := hm.keeps hpos hi k hk he
    exact ⟨m, hm', by omega, es ▸ he⟩
  have one : ∀ d : DB, d.job? j.id = some j → Inv now d → ∃ k ∈ (leonOne w now d j.id).jobs, k.id = j.id ∧ Ended k.state := by
    intro d hdj hid'
    have hnt : ¬ (j.state = "Terminated" ∨ j.state = "Error" ∨ j.state = "Finishing") := by
      rintro (h | h | h)
      · exact hd (Or.inr (Or.inl h))
      · exact hd (Or.inr (Or.inr h))
      · exact hd (Or.inl h)
    have hal : j.state ∈ aliveStates := by
      rcases allStates_cases (hi.valid j hj) with h | h
      · exact h
      · exact absurd (Or.inr h) hd
    unfold leonOne
    rw [hdj]
    dsimp only
    show ∃ k ∈ (leonAct w now d j).jobs, _
    unfold leonAct
    by_cases h1 : j.state = "Waiting" ∨ j.state = "Hold"
    · rw [if_pos h1]
      obtain ⟨⟨k, hk, e1, e2⟩, _⟩ := setJobState_alive hdj hal now "Error" (fun h => hd (Or.inr (Or.inr h)))
      exact ⟨k, hk, e1, Or.inr e2⟩
    · rw [if_neg h1, if_neg hnt, if_pos (by
        rcases hw with h | h | h
        · exact absurd (Or.inl h) h1
        · exact absurd (Or.inr h) h1
        · exact h), finishing_jobs]
      have hdj' : (setFinish d now j.id).job? j.id = some { j with stop := if now < j.start then j.start else now } := by
        have hm := (micro_setFinish now d j.id).inv hpos hid'
        have := updJob_mem (jid := j.id) (f := fun j : JobRow => { j with stop := if now < j.start then j.start else now })
          (job?_some hdj).1
        rw [if_pos rfl] at this
        exact job?_of_mem hm.ids this
      obtain ⟨⟨k, hk, e1, e2⟩, _⟩ := setJobState_alive hdj' hal now "Terminated" (fun h => hd (Or.inr (Or.inl h)))
      exact ⟨k, hk, e1, Or.inl e2⟩
  have fold : ∀ (l : List Nat) (d : DB), Inv now d → d.job? j.id = some j → j.id ∈ l →
      ∃ k ∈ (l.foldl (leonOne w now) d).jobs, k.id = j.id ∧ Ended k.state := by
    intro l
    induction l with
    | nil => intro d _ _ hm; simp at hm
    | cons x l ih =>
      intro d hi hdj hm
      rw [List.foldl_cons]
      have hi' := (micro_leonOne w now d x).inv hpos hi
      by_cases e : x = j.id
      · rw [e] at hi' ⊢
        exact keep (micro_foldl _ (micro_leonOne w now) l _) hi' (one d hdj hi)
      · refine ih _ hi' ?_ ?_
        · rw [leonOne_other w now d e]; exact hdj
        · rcases List.mem_cons.1 hm with h | h
          · exact absurd h.symm e
          · exact h
  unfold leonRun
  dsimp only
  have m1 := micro_foldl _ (micro_leonOne w now) (toKill db) db
  exact keep (micro_foldl _ (micro_exterminateOne now) _ _) (m1.inv hpos hi) (fold _ db hi hjob hmem)

/-- Escalation: for every history, once the timer of a deletion request is armed and the hard delay is over, one run of Sarko
followed by one run of Leon leaves the job finishing or ended, whatever the job does. -/
theorem escalation {t now now' : Int} {db : DB} (h : History t db) (hle : t ≤ now) (hle' : now ≤ now') (w w' : World)
    (soft wall : Int) {f : FragRow} (hf : f ∈ db.frags) (hst : f.state = "TIMER_ARMED") {j : JobRow} (hj : j ∈ db.jobs)
    (hid : j.id = f.jid) (hlate : f.date + leonWalltime soft wall < now) :
    ∃ j' ∈ (leonRun w' now' (sarkoRun w soft wall now db)).jobs, j'.id = j.id ∧ Done j'.state := by
  have hpos : 0 < now := by have := h.pos; omega
  have hpos' : 0 < now' := by omega
  have h1 : History now (sarkoRun w soft wall now db) := .step t now _ _ h hle (.sarko db w soft wall)
  have hi := h.inv.mono hle
  by_cases hd : Done j.state
  · obtain ⟨k, hk, ek, dk⟩ := (micro_sarkoRun w soft wall now db).keepsDone hpos hi j hj hd
    obtain ⟨l, hl, el, dl⟩ := (micro_leonRun w' now' (sarkoRun w soft wall now db)).keepsDone hpos' (h1.inv.mono hle') k hk dk
    exact ⟨l, hl, by omega, dl⟩
  · obtain ⟨f', hf', e1, _, _, _, _, e4⟩ := sarko_exact h w soft wall now hf hst hj hid
    obtain ⟨k, hk, ek⟩ := (micro_sarkoRun w soft wall now db).keepsJob j hj
    obtain ⟨l, hl, el, dl⟩ := leon_exterminates h1 hle' w' hf' (e4 hd hlate) hk (by omega)
    exact ⟨l, hl, by omega, dl⟩

/-- The deletion of a running job, never answered. -/
def exFrag : DB := leonRun ⟨fun _ => true, fun _ => [], fun _ => true⟩ 21 (fragJob exDb1 20 1 "bob").2

theorem exDb1_history : History 12 exDb1 := by
  have h0 : History 10 exDb0 :=
    .step 10 10 _ _ (.start 10 (by decide)) (by decide) (.submit _ exJob (by simp) rfl (by decide))
  exact .step 10 12 _ _ h0 (by decide) (.setState _ 1 "Running" (by decide) (by
    intro j hj _ hf
    have : j = exJob := by simpa [exDb0, submit] using hj
    rw [this] at hf
    exact absurd hf (by decide)))

theorem exFrag_history : History 21 exFrag :=
  .step 20 21 _ _ (.step 12 20 _ _ exDb1_history (by decide) (.frag _ 1 "bob")) (by decide) (.leon _ _)

/-- The hypotheses of the escalation hold, and the job is killed. -/
example : exFrag.frags = [⟨1, 20, "TIMER_ARMED"⟩] ∧ (exFrag.jobs.map JobRow.state) = ["Running"] ∧
    ((leonRun ⟨fun _ => true, fun _ => [], fun _ => true⟩ 400
      (sarkoRun ⟨fun _ => true, fun _ => [], fun _ => true⟩ 60 300 400 exFrag)).jobs.map JobRow.state) = ["Finishing"] := by
  decide

/-- Where a FRAGGED request comes from. -/
theorem frag_back {t now : Int} {db db' : DB} (h : History t db) (hs : Step now db db') :
    ∀ f ∈ db'.frags, f.state = "FRAGGED" →
      (∃ g ∈ db.frags, g.jid = f.jid ∧ g.state = "FRAGGED") ∨ (∃ k ∈ db.jobs, k.id = f.jid ∧ Done k.state) := by
  intro f hf hst
  have hd := h.frags_nodup
  have hi := h.inv
  have same : db'.frags = db.frags → (∃ g ∈ db.frags, g.jid = f.jid ∧ g.state = "FRAGGED") ∨
      (∃ k ∈ db.jobs, k.id = f.jid ∧ Done k.state) := fun e => Or.inl ⟨f, by rw [← e]; exact hf, rfl, hst⟩
  have fm : FMicro db db' → (∃ g ∈ db.frags, g.jid = f.jid ∧ g.state = "FRAGGED") ∨
      (∃ k ∈ db.jobs, k.id = f.jid ∧ Done k.state) := by
    intro hm
    obtain ⟨new, e, p⟩ := hm.rows
    rw [e] at hf
    rcases List.mem_append.1 hf with hf | hf
    · exact Or.inl ⟨f, hf, rfl, hst⟩
    · rw [p f hf] at hst
      exact absurd hst (by decide)
  cases hs with
  | submit j hid hres hst => exact same rfl
  | setState jid st hst hg => exact same (frags_setJobState _ _ _ _)
  | columns jid f hf => exact same rfl
  | frag jid user => exact fm (fmicro_fragJob db now jid user)
  | hold al jid r u => exact same (frags_holdJob _ _ _ _ _)
  | resume al jid u => exact same (frags_resumeJob _ _ _ _)
  | checkpoint jid s u => exact same (frags_askCheckpoint _ _ _ _)
  | leon w =>
    rw [leonRun_frags] at hf
    obtain ⟨g, hg, e⟩ := List.mem_map.1 hf
    by_cases hk : g.jid ∈ toKill db
    · rw [if_pos hk] at e
      rw [← e] at hst
      exact absurd hst (by decide : ("TIMER_ARMED" : String) ≠ "FRAGGED")
    · rw [if_neg hk] at e
      exact Or.inl ⟨g, hg, by rw [e], by rw [e]; exact hst⟩
  | exterminate w jid =>
    unfold leonExterminate at hf
    split at hf
    · rw [frags_finishing] at hf
      obtain ⟨g, hg, e⟩ := List.mem_map.1 hf
      by_cases hk : g.jid = jid
      · rw [if_pos hk] at e
        rw [← e] at hst
        exact absurd hst (by decide : ("TIMER_ARMED" : String) ≠ "FRAGGED")
      · rw [if_neg hk] at e
        exact Or.inl ⟨g, hg, by rw [e], by rw [e]; exact hst⟩
    · exact Or.inl ⟨f, hf, rfl, hst⟩
  | sarko w s wl =>
    obtain ⟨new, e, p, _⟩ := sarkoRun_frags w s wl now hi.ids hd
    rw [e] at hf
    rcases List.mem_append.1 hf with hf | hf
    · obtain ⟨g, hg, e⟩ := List.mem_map.1 hf
      by_cases hk : g.jid ∈ withFrag db "TIMER_ARMED"
      · rw [if_pos hk] at e
        obtain ⟨⟨j, hj, hid⟩, g', hg', hg1, hg2⟩ := mem_withFrag.1 hk
        rw [frag_of_jid hd hg' hg hg1] at hg2
        have hjob : db.job? g.jid = some j := by rw [← hid]; exact job?_of_mem hi.ids hj
        unfold decided at e
        rw [hjob] at e
        dsimp only at e
        right
        refine ⟨j, hj, by rw [← e]; exact hid, ?_⟩
        rw [← e] at hst
        change (verdict s wl now j.state g.date).getD g.state = "FRAGGED" at hst
        unfold verdict at hst
        split at hst
        · rename_i hc
          unfold Done Ended
          rcases hc with h | h | h
          · exact Or.inr (Or.inl h)
          · exact Or.inr (Or.inr h)
          · exact Or.inl h
        split at hst
        · exact absurd hst (by decide : ("LEON" : String) ≠ "FRAGGED")
        split at hst
        · exact absurd hst (by decide : ("LEON_EXTERMINATE" : String) ≠ "FRAGGED")
        · rw [Option.getD_none, hg2] at hst
          exact absurd hst (by decide)
      · rw [if_neg hk] at e
        exact Or.inl ⟨g, hg, by rw [e], by rw [e]; exact hst⟩
    · rw [p f hf] at hst
      exact absurd hst (by decide)
  | jobEnd kc extra jid exit error => exact same (frags_checkEnd _ _ _ _ _ _ _)
  | event ty jid hosts => exact same rfl
  | events _ env hs hnow h => exact fm (fmicro_ncsLoop _ h)

/-- A request marked FRAGGED belongs to a job that is finishing or has ended, in every history: a deleted job cannot come
back. -/
theorem fragged_done {t : Int} {db : DB} (h : History t db) : ∀ f ∈ db.frags, f.state = "FRAGGED" →
    ∃ j ∈ db.jobs, j.id = f.jid ∧ Done j.state := by
  induction h with
  | start t h => intro f hf; simp at hf
  | step t now db db' h hle hs ih =>
    intro f hf hst
    have hpos : 0 < now := by have := h.pos; omega
    have hi := h.inv.mono hle
    have key : ∃ k ∈ db.jobs, k.id = f.jid ∧ Done k.state := by
      rcases frag_back h hs f hf hst with ⟨g, hg, e1, e2⟩ | hk
      · obtain ⟨k, hk, e, d⟩ := ih g hg e2
        exact ⟨k, hk, by omega, d⟩
      · exact hk
    obtain ⟨k, hk, e, d⟩ := key
    obtain ⟨m, hm, em, dm⟩ := (hs.micro hpos hi).keepsDone hpos hi k hk d
    exact ⟨m, hm, by omega, dm⟩

/-- The request of a job that ends by itself before Leon has treated it stays in state LEON for ever: it is never marked
FRAGGED. -/
theorem leon_stuck {t now : Int} {db db' : DB} (h : History t db) (hs : Step now db db') {f : FragRow} (hf : f ∈ db.frags)
    (hst : f.state = "LEON") {j : JobRow} (hj : j ∈ db.jobs) (hid : j.id = f.jid) (hd : Done j.state) : f ∈ db'.frags := by
  have hn := h.frags_nodup
  have hi := h.inv
  have same : db'.frags = db.frags → f ∈ db'.frags := fun e => by rw [e]; exact hf
  have fm : FMicro db db' → f ∈ db'.frags := by
    intro hm
    obtain ⟨new, e, p⟩ := hm.rows
    rw [e]
    exact List.mem_append_left _ hf
  cases hs with
  | submit j hid hres hst => exact same rfl
  | setState jid st hst hg => exact same (frags_setJobState _ _ _ _)
  | columns jid f hf => exact same rfl
  | frag jid user => exact fm (fmicro_fragJob db now jid user)
  | hold al jid r u => exact same (frags_holdJob _ _ _ _ _)
  | resume al jid u => exact same (frags_resumeJob _ _ _ _)
  | checkpoint jid s u => exact same (frags_askCheckpoint _ _ _ _)
  | leon w =>
    rw [leonRun_frags]
    refine List.mem_map.2 ⟨f, hf, ?_⟩
    rw [if_neg]
    intro hm
    obtain ⟨k, hk, ek, dk, _⟩ := mem_toKill.1 hm
    rw [inj_of_sorted hi.ids k hk j hj (by omega)] at dk
    exact dk hd
  | exterminate w jid =>
    unfold leonExterminate
    split
    · rename_i hx
      rw [frags_finishing]
      refine List.mem_map.2 ⟨f, hf, ?_⟩
      rw [if_neg]
      intro e
      unfold fragState at hx
      have := find_nodup hn hf
      rw [e] at this
      rw [this] at hx
      have hx' : f.state = "LEON_EXTERMINATE" := by simpa using hx
      rw [hst] at hx'
      exact absurd hx' (by decide)
    · exact hf
  | sarko w s wl =>
    obtain ⟨new, e, p, _⟩ := sarkoRun_frags w s wl now hi.ids hn
    rw [e]
    refine List.mem_append_left _ (List.mem_map.2 ⟨f, hf, ?_⟩)
    rw [if_neg]
    intro hm
    obtain ⟨_, g, hg, hg1, hg2⟩ := mem_withFrag.1 hm
    rw [frag_of_jid hn hg hf hg1, hst] at hg2
    exact absurd hg2 (by decide)
  | jobEnd kc extra jid exit error => exact same (frags_checkEnd _ _ _ _ _ _ _)
  | event ty jid hosts => exact same rfl
  | events _ env hs hnow h => exact fm (fmicro_ncsLoop _ h)

/-- A deletion request made just before the end of the job. -/
def exStuck : DB := checkEnd (fragJob exDb1 20 1 "bob").2 22 false [] 1 (some 0) 0

theorem exStuck_history : History 22 exStuck :=
  .step 20 22 _ _ (.step 12 20 _ _ exDb1_history (by decide) (.frag _ 1 "bob")) (by decide) (.jobEnd _ false [] 1 (some 0) 0)

/-- The request of a job that has ended is not always marked FRAGGED: here it never is, whatever happens afterwards. -/
theorem ended_fragged_violated : ∀ t' db', Later 22 exStuck t' db' → ⟨1, 20, "LEON"⟩ ∈ db'.frags := by
  intro t' db' hl
  have both : ∀ t' db', Later 22 exStuck t' db' → (∃ j ∈ db'.jobs, j.id = 1 ∧ Done j.state) ∧ ⟨1, 20, "LEON"⟩ ∈ db'.frags := by
    intro t' db' hl
    induction hl with
    | refl =>
      refine ⟨?_, by decide⟩
      have h0 : ∃ j ∈ exStuck.jobs, j.id = 1 ∧ j.state = "Finishing" := by decide
      obtain ⟨j, hj, e, hs⟩ := h0
      exact ⟨j, hj, e, Or.inl hs⟩
    | step t' now db' db'' hl hle hs ih =>
      obtain ⟨⟨k, hk, ek, dk⟩, hf⟩ := ih
      have hh := hl.history exStuck_history
      have hpos : 0 < now := by have := hh.pos; omega
      have hi := hh.inv.mono hle
      obtain ⟨m, hm, em, dm⟩ := (hs.micro hpos hi).keepsDone hpos hi k hk dk
      exact ⟨⟨m, hm, by omega, dm⟩, leon_stuck hh hs hf rfl hk ek dk⟩
  exact (both t' db' hl).2

/-! ## C26 -/

/-- The limit applied by Sarko is reached. -/
def limitReached (db : DB) (now : Int) (i : Nat) : Prop :=
  ∃ j ∈ db.jobs, j.id = i ∧ j.state = "Running" ∧ now > j.start + maxTime db j now

theorem fragJob_jobs (db : DB) (now : Int) (jid : Nat) (user : String) :
    (fragJob db now jid user).2.jobs = db.jobs ∧ (fragJob db now jid user).2.log = db.log := by
  rcases fragJob_spec db now jid user with ⟨_, _, e⟩ | ⟨_, _, e⟩ <;> rw [e] <;> exact ⟨rfl, rfl⟩

theorem fragJob_events (db : DB) (now : Int) (jid : Nat) (user : String) : ∃ new, (fragJob db now jid user).2.events = db.events ++ new ∧
    ∀ e ∈ new, e.type ≠ "WALLTIME" := by
  rcases fragJob_spec db now jid user with ⟨_, _, e⟩ | ⟨_, _, e⟩ <;> rw [e]
  · exact ⟨[⟨"FRAG_JOB_REQUEST", jid, true, []⟩], rfl, by simp⟩
  · exact ⟨[], by simp, by simp⟩

theorem sarkoJob_spec (w : World) (now : Int) (db : DB) (i : Nat) :
    (sarkoJob w now db i).jobs = db.jobs ∧ (sarkoJob w now db i).log = db.log ∧
    ∃ new, (sarkoJob w now db i).events = db.events ++ new ∧
      (∀ e ∈ new, e.type = "WALLTIME" → e.jid = i ∧ ∃ j, db.job? i = some j ∧ now > j.start + maxTime db j now) ∧
      ((∃ j, db.job? i = some j ∧ now > j.start + maxTime db j now) → ⟨"WALLTIME", i, true, []⟩ ∈ new ∧
        ∃ f ∈ (sarkoJob w now db i).frags, f.jid = i) := by
  unfold sarkoJob
  cases hj : db.job? i with
  | none => exact ⟨rfl, rfl, [], by simp, by simp, by simp⟩
  | some j =>
    dsimp only
    by_cases h1 : now > j.start + maxTime db j now
    · rw [if_pos h1]
      obtain ⟨e1, e2⟩ := fragJob_jobs db now i "oar"
      obtain ⟨new, e3, p⟩ := fragJob_events db now i "oar"
      refine ⟨e1, e2, new ++ [⟨"WALLTIME", i, true, []⟩], ?_, ?_, ?_⟩
      · show (fragJob db now i "oar").2.events ++ _ = _
        rw [e3, List.append_assoc]
      · intro e he ht
        rcases List.mem_append.1 he with he | he
        · exact absurd ht (p e he)
        · have : e = ⟨"WALLTIME", i, true, []⟩ := by simpa using he
          rw [this]
          exact ⟨rfl, j, rfl, h1⟩
      · intro _
        refine ⟨by simp, ?_⟩
        show ∃ f ∈ (fragJob db now i "oar").2.frags, f.jid = i
        unfold fragJob
        rw [hj]
        dsimp only
        rw [if_pos (Or.inr (Or.inl rfl))]
        split
        · rename_i h
          obtain ⟨f, hf, e⟩ := List.any_eq_true.1 h
          exact ⟨f, hf, by simpa using e⟩
        · exact ⟨⟨i, now, "LEON"⟩, by simp [addEvent], rfl⟩
    · rw [if_neg h1]
      have hno : (∃ k, some j = some k ∧ now > k.start + maxTime db k now) → False := by
        rintro ⟨k, hk, h⟩
        rw [← Option.some.inj hk] at h
        exact h1 h
      split
      · refine ⟨rfl, rfl, [⟨"CHECKPOINT", i, true, []⟩,
          ⟨if w.ckptOk i then "CHECKPOINT_SUCCESSFULL" else "CHECKPOINT_ERROR", i, true, []⟩], by simp [addEvent], ?_,
          fun h => (hno h).elim⟩
        intro e he ht
        exfalso
        rcases List.mem_cons.1 he with he | he
        · rw [he] at ht; exact absurd ht (by decide : ("CHECKPOINT" : String) ≠ "WALLTIME")
        · have he' := List.mem_singleton.1 he
          rw [he'] at ht
          cases hw : w.ckptOk i
          · rw [hw] at ht; exact absurd ht (by decide : ("CHECKPOINT_ERROR" : String) ≠ "WALLTIME")
          · rw [hw] at ht; exact absurd ht (by decide : ("CHECKPOINT_SUCCESSFULL" : String) ≠ "WALLTIME")
      · exact ⟨rfl, rfl, [], by simp, by simp, fun h => (hno h).elim⟩

theorem maxTime_congr {db db' : DB} (h : db'.log = db.log) (j : JobRow) (now : Int) : maxTime db' j now = maxTime db j now := by
  unfold maxTime suspendedSum
  rw [h]

theorem sarkoFold_spec (w : World) (now : Int) (jobs : List JobRow) (log : List LogRow) : ∀ (l : List Nat) (db : DB),
    db.jobs = jobs → db.log = log →
    (l.foldl (sarkoJob w now) db).jobs = jobs ∧
    ∃ new, (l.foldl (sarkoJob w now) db).events = db.events ++ new ∧
      (∀ e ∈ new, e.type = "WALLTIME" → e.jid ∈ l ∧ ∃ j, db.job? e.jid = some j ∧ now > j.start + maxTime db j now) ∧
      (∀ i ∈ l, (∃ j, db.job? i = some j ∧ now > j.start + maxTime db j now) → ⟨"WALLTIME", i, true, []⟩ ∈ new ∧
        ∃ f ∈ (l.foldl (sarkoJob w now) db).frags, f.jid = i)
  | [], db, h1, _ => ⟨h1, [], by simp, by simp, by simp⟩
  | x :: l, db, h1, h2 => by
    obtain ⟨a1, a2, new1, a3, a4, a5⟩ := sarkoJob_spec w now db x
    obtain ⟨b1, new2, b2, b3, b4⟩ := sarkoFold_spec w now jobs log l (sarkoJob w now db x) (a1.trans h1) (a2.trans h2)
    have hjob : ∀ i, (sarkoJob w now db x).job? i = db.job? i := fun i => by unfold DB.job?; rw [a1]
    have hmax : ∀ j, maxTime (sarkoJob w now db x) j now = maxTime db j now := fun j => maxTime_congr a2 j now
    rw [List.foldl_cons]
    refine ⟨b1, new1 ++ new2, by rw [b2, a3, List.append_assoc], ?_, ?_⟩
    · intro e he ht
      rcases List.mem_append.1 he with he | he
      · obtain ⟨e1, e2⟩ := a4 e he ht
        rw [e1]
        exact ⟨by simp, e2⟩
      · obtain ⟨e1, j, e2, e3⟩ := b3 e he ht
        rw [hjob] at e2
        rw [hmax] at e3
        exact ⟨by simp [e1], j, e2, e3⟩
    · intro i hi hl
      rcases List.mem_cons.1 hi with hi | hi
      · rw [hi] at hl ⊢
        obtain ⟨c1, f, hf, hfi⟩ := a5 hl
        refine ⟨List.mem_append_left _ c1, ?_⟩
        obtain ⟨new, en, _⟩ := (fmicro_foldl _ (fmicro_sarkoJob w now) l (sarkoJob w now db x)).rows
        exact ⟨f, by rw [en]; exact List.mem_append_left _ hf, hfi⟩
      · obtain ⟨j, e2, e3⟩ := hl
        obtain ⟨c1, c2⟩ := b4 i hi ⟨j, by rw [hjob]; exact e2, by rw [hmax]; exact e3⟩
        exact ⟨List.mem_append_right _ c1, c2⟩

/-- For every history: a run of Sarko registers that a job has exhausted its walltime exactly when the job is running and its
limit is reached, and then there is a deletion request for it. -/
theorem sarko_walltime {t : Int} {db : DB} (h : History t db) (w : World) (soft wall now : Int) :
    ∃ new, (sarkoRun w soft wall now db).events = db.events ++ new ∧
      ∀ i, ((∃ e ∈ new, e.type = "WALLTIME" ∧ e.jid = i) ↔ limitReached db now i) ∧
        (limitReached db now i → ∃ f ∈ (sarkoRun w soft wall now db).frags, f.jid = i) := by
  have hi := h.inv
  unfold sarkoRun
  dsimp only
  obtain ⟨j1, j2, j3, j4⟩ := sarkoFold_jobs soft wall now (withFrag db "TIMER_ARMED") db
  generalize (withFrag db "TIMER_ARMED").foldl (sarkoTimer soft wall now) db = db1 at j1 j2 j3 j4
  obtain ⟨_, new, e1, e2, e3⟩ := sarkoFold_spec w now db.jobs db.log (runningIds db1) db1 j1 j2
  have hjob : ∀ i, db1.job? i = db.job? i := fun i => by unfold DB.job?; rw [j1]
  have hrun : ∀ i j, db.job? i = some j → (i ∈ runningIds db1 ↔ j.state = "Running") := by
    intro i j hj
    obtain ⟨hjm, hjid⟩ := job?_some hj
    unfold runningIds
    rw [j1, List.mem_map]
    constructor
    · rintro ⟨k, hk, ek⟩
      obtain ⟨hk1, hk2⟩ := List.mem_filter.1 hk
      rw [← inj_of_sorted hi.ids k hk1 j hjm (by omega)]
      simpa using hk2
    · intro hs
      exact ⟨j, List.mem_filter.2 ⟨hjm, by simp [hs]⟩, hjid⟩
  have lim : ∀ i, limitReached db now i → i ∈ runningIds db1 ∧ ∃ j, db1.job? i = some j ∧ now > j.start + maxTime db1 j now := by
    rintro i ⟨j, hj, hid, hs, hl⟩
    have hj' : db.job? i = some j := by rw [← hid]; exact job?_of_mem hi.ids hj
    exact ⟨(hrun i j hj').2 hs, j, by rw [hjob]; exact hj', by rw [maxTime_congr j2]; exact hl⟩
  refine ⟨new, by rw [e1, j3], fun i => ⟨⟨?_, ?_⟩, ?_⟩⟩
  · rintro ⟨e, he, ht, rfl⟩
    obtain ⟨g1, j, g2, g3⟩ := e2 e he ht
    rw [hjob] at g2
    rw [maxTime_congr j2] at g3
    exact ⟨j, (job?_some g2).1, (job?_some g2).2, (hrun _ j g2).1 g1, g3⟩
  · intro hl
    obtain ⟨g1, g2⟩ := lim i hl
    exact ⟨_, (e3 i g1 g2).1, rfl, rfl⟩
  · intro hl
    obtain ⟨g1, g2⟩ := lim i hl
    exact (e3 i g1 g2).2

/-- For the jobs that have never been suspended, the walltime is honoured exactly: such a job is reported by a run of Sarko
exactly when it is running and `now` exceeds its start date plus its walltime. -/
theorem sarko_walltime_partial {t : Int} {db : DB} (h : History t db) (w : World) (soft wall now : Int) :
    ∃ new, (sarkoRun w soft wall now db).events = db.events ++ new ∧
      ∀ j ∈ db.jobs, j.suspended = false →
        ((∃ e ∈ new, e.type = "WALLTIME" ∧ e.jid = j.id) ↔ j.state = "Running" ∧ j.start + j.walltime < now) := by
  obtain ⟨new, e1, e2⟩ := sarko_walltime h w soft wall now
  refine ⟨new, e1, ?_⟩
  intro j hj hs
  rw [(e2 j.id).1]
  constructor
  · rintro ⟨k, hk, e, h1, h2⟩
    rw [inj_of_sorted h.inv.ids k hk j hj e] at h1 h2
    unfold maxTime at h2
    rw [hs] at h2
    exact ⟨h1, h2⟩
  · rintro ⟨h1, h2⟩
    refine ⟨j, hj, rfl, h1, ?_⟩
    unfold maxTime
    rw [hs]
    exact h2

/-- A job of walltime 60 reported after 61 seconds and not before. -/
example : ((sarkoRun ⟨fun _ => true, fun _ => [], fun _ => true⟩ 60 300 60 exDb1).events = []) ∧
    ((sarkoRun ⟨fun _ => true, fun _ => [], fun _ => true⟩ 60 300 61 exDb1).events.map Event.type) =
      ["FRAG_JOB_REQUEST", "WALLTIME"] := by decide

/-- A job started on date 12, suspended from 20 to 25, and running again. -/
def exSusp3 : DB :=
  setJobState ((setJobState (exDb1.updJob 1 (fun j => { j with start := 12 })) 20 1 "Suspended").updJob 1
    (fun j => { j with suspended := true })) 25 1 "Running"

theorem exSusp3_history : History 25 exSusp3 := by
  have g : ∀ (t now : Int) (db : DB) (st : String), History t db → t ≤ now → st ∈ allStates →
      (db.jobs.map JobRow.state).contains "Finishing" = false → History now (setJobState db now 1 st) := by
    intro t now db st h hle hst hn
    refine .step t now _ _ h hle (.setState _ 1 st hst ?_)
    intro j hj _ hf
    exfalso
    have : (db.jobs.map JobRow.state).contains "Finishing" = true := by
      rw [List.contains_iff_mem]
      exact List.mem_map.2 ⟨j, hj, hf⟩
    rw [hn] at this
    exact absurd this (by decide)
  have h1 : History 12 _ := .step 12 12 _ _ exDb1_history (by decide) (.columns _ 1 (fun j => { j with start := 12 }) (fun _ => ⟨rfl, rfl, rfl⟩))
  have h2 := g 12 20 _ "Suspended" h1 (by decide) (by decide) (by decide)
  have h3 : History 20 _ := .step 20 20 _ _ h2 (by decide) (.columns _ 1 (fun j => { j with suspended := true }) (fun _ => ⟨rfl, rfl, rfl⟩))
  exact g 20 25 _ "Running" h3 (by decide) (by decide) (by decide)

/-- A job started on date 12 with a walltime of 60 seconds and suspended for 5 seconds should not be killed before date 77. In
this reachable database Sarko asks for its deletion on date 30: the limit is replaced by the suspended duration instead of
being increased by it. -/
theorem sarko_suspended_violated :
    (exSusp3.jobs.map (fun j => (j.start, j.walltime))) = [(12, 60)] ∧ suspendedSum exSusp3 1 30 = 5 ∧
    ((sarkoRun ⟨fun _ => true, fun _ => [], fun _ => true⟩ 60 300 30 exSusp3).events.map Event.type) =
      ["FRAG_JOB_REQUEST", "WALLTIME"] := by decide

end Oar.Jobs
