import Verif.RoundLive
import Verif.SchedTotal

/-!
# A round always ends (C98)
-/

namespace Oar.Round

open Oar.Launch Oar.ResSet Oar.JobTypes Oar.Tools Oar.Queues Oar.Hierarchy Spec
open Oar.Kao (SetOk HasOne)

/-! ## The jobs already placed -/

theorem sched_prev {s : RS} {sec now : Int} {db : DB} {js1 : List Kao.Job} (hs : Sound db) (ht : OnTime sec now db) (hsi : Simple db) (hn : Numbered s db)
    (h : (extract s sec (sorted (join (started s db)))).mapM toJob = some js1) : Prev js1 := by
  -- the rows
  have hrow : ∀ r ∈ sorted (join (started s db)), r.job ∈ db.jobs ∧ Occupies r.job ∧ r.mid = r.job.mold ∧ r.start = r.job.start ∧
      (∃ m ∈ db.molds, m.id = r.job.mold ∧ m.walltime = r.walltime) ∧ ∃ i, Holds db r.job i ∧ r.rid = s.o2i (s.i2o i) :=
    fun r hr => started_row hs ((sorted_mem _ r).1 hr)
  have hlex := sorted_lex (join (started s db))
  have hgr : Grouped (sorted (join (started s db))) := grouped_of_lex _ (by
    intro a ha b hb e
    rw [nodup_inj hs.jobs (hrow a ha).1 (hrow b hb).1 e]) hlex
  have hex := extract_grouped' s sec _ hgr ((numbered_susp hn).imp id (fun hss r hr => hss _ (hrow r hr).1))
  rw [hex] at h
  obtain ⟨m1, m2, m3⟩ := mapM_toJob _ _ h
  have hprev : Prev js1 := by
    refine ⟨m3 ?_, ?_, ?_⟩
    · rw [List.pairwise_map]
      have hsl := runs_sublist (sorted (join (started s db)))
      have hp2 := hlex.sublist hsl
      rw [List.pairwise_map] at hp2
      refine hp2.imp_of_mem ?_
      intro a b ha hb hab
      have r1 := (hrow a.1 (runs_sound _ a ha).1).2.2.2.1
      have r2 := (hrow b.1 (runs_sound _ b hb).1).2.2.2.1
      show a.1.start ≤ b.1.start
      omega
    · intro j hj
      obtain ⟨e, he, he2⟩ := m1 j hj
      obtain ⟨x, hx, rfl⟩ := List.mem_map.1 he
      obtain ⟨g1, g2, g3, g4, ⟨m, hm, g5, g6⟩, _⟩ := hrow x.1 (runs_sound _ x hx).1
      obtain ⟨t1, t2, t3, _⟩ := toJob_spec he2
      refine ⟨_, _, t2, t3, ?_⟩
      have := ((ht _ g1 g2).2.2 m hm g5).1
      unfold extra at this
      show 1 ≤ x.1.walltime + sec + _
      rw [← g6]
      omega
    · intro j hj
      obtain ⟨e, he, he2⟩ := m1 j hj
      obtain ⟨x, hx, rfl⟩ := List.mem_map.1 he
      obtain ⟨g1, _⟩ := hrow x.1 (runs_sound _ x hx).1
      obtain ⟨_, _, _, t4⟩ := toJob_spec he2
      obtain ⟨_, s1, s2⟩ := hsi _ g1
      have c1 := t4 (txt "container")
      have c2 := t4 (txt "inner")
      change j.types.lookup (String.ofList "container".toList) = Option.map String.ofList ((tjob x.1.job).types.lookup (txt "container")) at c1
      change j.types.lookup (String.ofList "inner".toList) = Option.map String.ofList ((tjob x.1.job).types.lookup (txt "inner")) at c2
      rw [s1, String.ofList_toList] at c1
      rw [s2, String.ofList_toList] at c2
      exact ⟨c1, c2⟩
  exact hprev

theorem sched_jobs {s : RS} {sec : Int} {db : DB} (hs : Sound db) (hn : Numbered s db) : ∀ e ∈ extract s sec (sorted (join (started s db))), e.job ∈ db.jobs ∧ Occupies e.job := by
  -- the rows
  have hrow : ∀ r ∈ sorted (join (started s db)), r.job ∈ db.jobs ∧ Occupies r.job ∧ r.mid = r.job.mold ∧ r.start = r.job.start ∧
      (∃ m ∈ db.molds, m.id = r.job.mold ∧ m.walltime = r.walltime) ∧ ∃ i, Holds db r.job i ∧ r.rid = s.o2i (s.i2o i) :=
    fun r hr => started_row hs ((sorted_mem _ r).1 hr)
  have hlex := sorted_lex (join (started s db))
  have hgr : Grouped (sorted (join (started s db))) := grouped_of_lex _ (by
    intro a ha b hb e
    rw [nodup_inj hs.jobs (hrow a ha).1 (hrow b hb).1 e]) hlex
  have hex := extract_grouped' s sec _ hgr ((numbered_susp hn).imp id (fun hss r hr => hss _ (hrow r hr).1))
  rw [hex]
  intro e he
  obtain ⟨x, hx, rfl⟩ := List.mem_map.1 he
  obtain ⟨g1, g2, _⟩ := hrow x.1 (runs_sound _ x hx).1
  exact ⟨g1, g2⟩

theorem mapM_total : ∀ sched : List EJob, (∀ e ∈ sched, (jobTypes e.job.types Info.empty).isSome = true) → ∃ js, sched.mapM toJob = some js
  | [], _ => ⟨[], rfl⟩
  | e :: sched, h => by
    obtain ⟨js, hjs⟩ := mapM_total sched (fun e he => h e (List.mem_cons_of_mem _ he))
    obtain ⟨i, hi⟩ := Option.isSome_iff_exists.1 (h e (by simp))
    rw [List.mapM_cons]
    unfold toJob at hjs ⊢
    rw [hi, hjs]
    exact ⟨_, rfl⟩

theorem initial_total {ctx : Kao.Ctx} {s : RS} {now : Int} (hcal : ctx.cal = none) (hnow : now ≤ Kao.maxTime) (hu : ∀ p ∈ s.upto, p.1 < Kao.maxTime) :
    ∃ ss, initial ctx s now = some (ctx, ss) ∧ HasOne ss := by
  have h0 : (Kao.SlotSet.ofItvs ctx s.roids.toFinset now).initCalendar ctx = some (ctx, Kao.SlotSet.ofItvs ctx s.roids.toFinset now) := by
    unfold Kao.SlotSet.initCalendar
    rw [hcal]
  have hwf := (Kao.fresh_wf ctx s.roids.toFinset now 0).1 hnow
  have h1 : HasOne (Kao.SlotSet.ofItvs ctx s.roids.toFinset now) := ⟨_, List.mem_singleton.2 rfl, rfl⟩
  unfold initial
  rw [h0]
  dsimp only
  split
  · exact ⟨_, rfl, h1⟩
  · have hord : (pseudo s).Pairwise (fun a b => a.startTime ≤ b.startTime) := by
      unfold pseudo
      rw [List.pairwise_map]
      exact (sorted_spec (fun p : Int × List Nat => p.1) s.upto).2.1
    have hpl : ∀ j ∈ pseudo s, Kao.Placed j := by
      intro j hj
      unfold pseudo at hj
      obtain ⟨p, hp, rfl⟩ := List.mem_map.1 hj
      have := hu p ((sorted_spec (fun p : Int × List Nat => p.1) s.upto).1.mem_iff.1 hp)
      exact ⟨_, _, rfl, rfl, by omega⟩
    obtain ⟨ss', hss⟩ := Kao.splitJobs_total (ctx := ctx) hwf hord hpl
    rw [hss]
    exact ⟨ss', rfl, h1.ids (Kao.splitJobs_sub hwf hord hpl hss).ids⟩

/-- The occupying jobs have readable types. -/
def TypesRead (db : DB) : Prop := ∀ j ∈ db.jobs, Occupies j → (jobTypes j.types Info.empty).isSome = true

theorem init_total {ctx : Kao.Ctx} {s : RS} {sec now : Int} {db : DB} (hs : Sound db) (ht : OnTime sec now db) (hsi : Simple db) (hn : Numbered s db) (hcal : ctx.cal = none)
    (hnow : now ≤ Kao.maxTime) (hty : TypesRead db) :
    ∃ ss sched js, init ctx s sec now db = some (started s db, ctx, [("default", ss)], sched, js) ∧ HasOne ss ∧ ∀ e ∈ sched, e.job ∈ db.jobs ∧ Occupies e.job := by
  have hj := sched_jobs (sec := sec) hs hn
  obtain ⟨js, hjs⟩ := mapM_total (extract s sec (sorted (join (started s db)))) (fun e he => hty _ (hj e he).1 (hj e he).2)
  have hprev := sched_prev hs ht hsi hn hjs
  obtain ⟨ss, hi, h1⟩ := initial_total (ctx := ctx) (s := s) hcal hnow (numbered_upto hn)
  obtain ⟨_, hok, _⟩ := initial_spec hcal hnow (numbered_upto hn) hi
  have hun : init ctx s sec now db = (if js = [] then some (started s db, ctx, [("default", ss)], extract s sec (sorted (join (started s db))), js)
        else (Kao.setPrev ctx [("default", ss)] js sec now true false).map (fun sets =>
          (started s db, ctx, sets, extract s sec (sorted (join (started s db))), js))) := by
    unfold init
    dsimp only
    rw [flush_simple hsi, hi]
    change (match (extract s sec (sorted (join (started s db)))).mapM toJob with
      | none => none
      | some js =>
        if js = [] then some (started s db, ctx, [("default", ss)], extract s sec (sorted (join (started s db))), js)
        else (Kao.setPrev ctx [("default", ss)] js sec now true false).map (fun sets =>
          (started s db, ctx, sets, extract s sec (sorted (join (started s db))), js))) = _
    rw [hjs]
  rw [hun]
  split
  · exact ⟨ss, _, js, rfl, h1, hj⟩
  · obtain ⟨ss', hp⟩ := Kao.setPrev_total (ctx := ctx) (sec := sec) (now := now) (fb := true) (ob := false) hprev.flat hok.1 hprev.order hprev.placed
    obtain ⟨ss2, e1, e2⟩ := Kao.setPrev_sub hprev.flat hok.1 hprev.order hprev.placed (by simp) hp
    simp only [List.lookup_cons_self, Option.some.injEq] at e1
    subst e1
    rw [hp]
    exact ⟨ss', _, js, rfl, h1.ids e2.ids, hj⟩

/-! ## The groups -/

theorem group_total {s : RS} {sec timeout now : Int} {ctx : Kao.Ctx} {db : DB} {ss0 ss : Kao.SlotSet} {W : List Kao.Job} {done : List Nat} {Q : List EJob} {js : List Kao.Job}
    {g : Grp} {x : DB × Kao.Ctx × List (String × Kao.SlotSet)} (hinv : Going s now ctx db ss0 W done Q x) (hp : Prev js) (hcal : ctx.cal = none) (hsi : Simple db) (hg : Given [g] db)
    (hset : x.2.2 = [("default", ss)]) (h1 : HasOne ss) (hl : ∀ w ∈ g.waiting, Kao.Legible (hyOf s) w) :
    ∃ x' ss', group s sec timeout now js g x = some x' ∧ x'.2.2 = [("default", ss')] ∧ HasOne ss' := by
  obtain ⟨ssn, k7, k8, k9, k10, k11⟩ := hinv.set_
  rw [hset] at k7
  simp only [List.lookup_cons_self, Option.some.injEq] at k7
  subst k7
  obtain ⟨s1, hb, hok1, h11⟩ : ∃ s1, (if g.names = ["besteffort"] then Kao.setPrev x.2.1 x.2.2 js sec now false true else some x.2.2) = some [("default", s1)] ∧ SetOk s1 ∧ HasOne s1 := by
    by_cases hn : g.names = ["besteffort"]
    · rw [if_pos hn, hset]
      obtain ⟨ss', hpp⟩ := Kao.setPrev_total (ctx := x.2.1) (sec := sec) (now := now) (fb := false) (ob := true) hp.flat k8.1 hp.order hp.placed
      obtain ⟨ss2, e1, e2⟩ := Kao.setPrev_sub hp.flat k8.1 hp.order hp.placed (by simp) hpp
      simp only [List.lookup_cons_self, Option.some.injEq] at e1
      subst e1
      exact ⟨ss', hpp, e2.setOk k8, h1.ids e2.ids⟩
    · rw [if_neg hn, hset]
      exact ⟨ss, rfl, k8, h1⟩
  have hwn : (g.waiting.map (·.id)).Nodup := by have := hg.once; simpa using this
  have hinit : Kao.PassInv "default" s1 [] ⟨x.2.1, [("default", s1)], g.waiting⟩ :=
    ⟨⟨s1, by simp, hok1, rfl, rfl, fun _ _ h => h, by simp⟩, by simp⟩
  obtain ⟨st, ss', hsch, hst, hone⟩ := Kao.schedule_total (hy := hyOf s) (sec := sec) (g.waiting.map (·.id)) [] _ s1 hinit hwn (by simp) rfl h11 (by
    intro jid hjid
    obtain ⟨w, hw, rfl⟩ := List.mem_map.1 hjid
    obtain ⟨p1, p2, p3, p4, p5⟩ := hg.plain g (by simp) w hw
    refine ⟨w, job?_of_mem (st := ⟨x.2.1, [("default", s1)], g.waiting⟩) hwn hw, ⟨⟨p1, p2⟩, p3, ?_⟩, ?_, p4, hl w hw⟩
    · rintro ⟨v, hv, _⟩
      rw [p4] at hv
      simp at hv
    · unfold Kao.Job.setName
      rw [p5]
      rfl) (by show x.2.1.cal = none; rw [hinv.ctx_]; exact hcal)
  refine ⟨(saveAssigns s x.1 (st.jobs.filterMap (toE x.1)), st.ctx, st.sets), ss', ?_, hst, hone⟩
  unfold group
  rw [hb]
  dsimp only
  rw [hsch]
  dsimp only
  rw [groupResv_simple hsi _ _ (hg.noResv g (by simp)) hinv.jobs]
  rfl

theorem groups_total {s : RS} {sec timeout now : Int} {ctx : Kao.Ctx} {db : DB} {ss0 : Kao.SlotSet} {W : List Kao.Job} {js : List Kao.Job} (hbeg : ss0.begin_ = now) (hp : Prev js)
    (hcal : ctx.cal = none) (hsi : Simple db) : ∀ (gs : List Grp) (done : List Nat) (Q : List EJob) (ss : Kao.SlotSet) (x : DB × Kao.Ctx × List (String × Kao.SlotSet)),
    Going s now ctx db ss0 W done Q x → Given gs db → (∀ g ∈ gs, ∀ w ∈ g.waiting, w ∈ W) → (∀ g ∈ gs, ∀ w ∈ g.waiting, w.id ∉ done) → x.2.2 = [("default", ss)] → HasOne ss →
    (∀ g ∈ gs, ∀ w ∈ g.waiting, Kao.Legible (hyOf s) w) → ∃ x', groups s sec timeout now js gs x = some x'
  | [], _, _, _, x, _, _, _, _, _, _, _ => ⟨x, rfl⟩
  | g :: gs, done, Q, ss, x, hinv, hg, hW, hnew, hset, h1, hl => by
    obtain ⟨g1, g2, g3⟩ := given_cons hg
    obtain ⟨x1, ss1, e1, e2, e3⟩ := group_total (sec := sec) (timeout := timeout) hinv hp hcal hsi g1 hset h1 (hl g (by simp))
    obtain ⟨Q1, i1⟩ := group_step hbeg hinv hp hcal hsi g1 (hW g (by simp)) (hnew g (by simp)) e1
    unfold groups
    rw [e1, Option.bind_some]
    refine groups_total hbeg hp hcal hsi gs _ Q1 ss1 x1 i1 g2 (fun g' hg' => hW g' (List.mem_cons_of_mem _ hg')) ?_ e2 e3 (fun g' hg' => hl g' (List.mem_cons_of_mem _ hg'))
    intro g' hg' w' hw'
    rw [List.mem_append, not_or]
    refine ⟨?_, hnew g' (List.mem_cons_of_mem _ hg') w' hw'⟩
    intro hm
    obtain ⟨w, hw, e⟩ := List.mem_map.1 hm
    exact g3 g' hg' w' hw' w hw e

/-! ## The launching -/

theorem toKill_total {ej : List EJob} {be : List (Nat × LJob)} (hc : ∀ k b, be.lookup k = some b → b.checkpoint = 0) : ∀ (items : List (Nat × Nat)) (killed : List Nat),
    (∀ x ∈ items, ∃ e ∈ ej, e.job.id = x.2) → ∃ out, toKill ej be items killed = some out
  | [], killed, _ => ⟨killed, rfl⟩
  | (rid, jid) :: items, killed, h => by
    have hrec := fun k => toKill_total hc items k (fun x hx => h x (List.mem_cons_of_mem _ hx))
    unfold toKill
    cases hb : be.lookup rid with
    | none => exact hrec _
    | some b =>
      dsimp only
      cases he : ej.find? (fun e => e.job.id = jid) with
      | none =>
        obtain ⟨e, h1, h2⟩ := h (rid, jid) (by simp)
        rw [List.find?_eq_none] at he
        exact absurd (by simpa using h2) (he e h1)
      | some e =>
        dsimp only
        split
        · exact hrec _
        · split
          · exact hrec _
          · rw [if_neg (by rw [hc rid b hb]; omega)]
            exact hrec _

theorem launchRound_total {s : RS} {sec now : Int} {rows : List Row} {sched : List EJob} {db : DB} (hw : ∀ r ∈ rows, r.job.state = "Waiting")
    (hc : ∀ k b, (beMap sched).lookup k = some b → b.checkpoint = 0) : ∃ db' code, launchRound s sec now rows sched db = some (db', code) ∧ (code = 0 ∨ code = 2) := by
  obtain ⟨out, ho⟩ := toKill_total (ej := extract s sec rows) hc (ridMap s rows) [] (by
    intro x hx
    rcases ridMap_mem s rows [] x hx with ⟨r, hr, rfl⟩ | hx
    · exact extract_ids s sec rows (fun r hr => by rw [hw r hr]; decide) r hr
    · simp at hx)
  unfold launchRound
  dsimp only
  rw [ho]
  cases out with
  | nil => exact ⟨_, _, rfl, Or.inl rfl⟩
  | cons k ks => exact ⟨_, _, rfl, Or.inr rfl⟩

/-! ## The groups without any date -/

theorem groups_append {s : RS} {sec timeout now : Int} {js : List Kao.Job} : ∀ (pre : List Grp) (gs : List Grp) (x : DB × Kao.Ctx × List (String × Kao.SlotSet)),
    groups s sec timeout now js (pre ++ gs) x = (groups s sec timeout now js pre x).bind (groups s sec timeout now js gs)
  | [], gs, x => rfl
  | p :: pre, gs, x => by
    show (group s sec timeout now js p x).bind (groups s sec timeout now js (pre ++ gs)) = ((group s sec timeout now js p x).bind (groups s sec timeout now js pre)).bind _
    cases h : group s sec timeout now js p x with
    | none => rfl
    | some x1 => exact groups_append pre gs x1

/-- A moldable of a job not yet treated is not in the Gantt. -/
theorem going_new {s : RS} {now : Int} {ctx : Kao.Ctx} {db : DB} {ss0 : Kao.SlotSet} {W : List Kao.Job} {done : List Nat} {Q : List EJob} {g : Grp}
    {x : DB × Kao.Ctx × List (String × Kao.SlotSet)} (hs : Sound db) (hinv : Going s now ctx db ss0 W done Q x) (hg : Given [g] db) (hnew : ∀ w ∈ g.waiting, w.id ∉ done) :
    ∀ w ∈ g.waiting, ∀ m ∈ w.mlds, ∀ t, (m.id, t) ∉ x.1.preds := by
  intro w hw m hm t hp
  obtain ⟨d, hd, d1, d2⟩ := hg.molds g (by simp) w hw m hm
  obtain ⟨j, hj, j1, j2⟩ := hg.row g (by simp) w hw
  rw [hinv.preds] at hp
  rcases List.mem_append.1 hp with hp | hp
  · obtain ⟨j', hj', ho, e⟩ := started_preds hp
    simp only [Prod.mk.injEq] at e
    exact waiting_mold hs j hj j2 d hd (by rw [d2, j1]) j' hj' ho (by rw [d1]; exact e.1)
  · obtain ⟨e, he, ee⟩ := List.mem_map.1 hp
    simp only [Prod.mk.injEq] at ee
    obtain ⟨_, _, d', hd', f1, f2⟩ := hinv.free e he
    have : d' = d := nodup_inj hs.molds hd' hd (by rw [f1, d1]; exact ee.1)
    exact hnew w hw (by rw [← d2, ← this, f2]; exact hinv.done_ e he)

/-- A group that is idle is stuck. -/
theorem idle_spec {s : RS} {sec timeout now : Int} {ctx : Kao.Ctx} {db : DB} {ss0 : Kao.SlotSet} {W : List Kao.Job} {done : List Nat} {Q : List EJob} {js : List Kao.Job} {g : Grp}
    {x x' : DB × Kao.Ctx × List (String × Kao.SlotSet)} (hs : Sound db) (hsi : Simple db) (hinv : Going s now ctx db ss0 W done Q x) (hg : Given [g] db)
    (hnew : ∀ w ∈ g.waiting, w.id ∉ done) (h : group s sec timeout now js g x = some x') (hid : idle s sec now js g x = true) :
    g.waiting ≠ [] ∧ ∀ w ∈ g.waiting, ∀ m ∈ w.mlds, ∀ t, (m.id, t) ∉ x'.1.preds := by
  obtain ⟨sets, st, h1, h2, rfl⟩ := group_parts hinv hsi hg h
  unfold idle at hid
  rw [h1] at hid
  dsimp only at hid
  rw [h2] at hid
  dsimp only at hid
  simp only [Bool.and_eq_true, Bool.not_eq_true', List.isEmpty_eq_false_iff, List.all_eq_true, decide_eq_true_eq] at hid
  constructor
  · intro e
    rw [e] at h2
    simp only [List.map_nil, Kao.schedule, Option.some.injEq] at h2
    rw [← h2] at hid
    exact hid.1 rfl
  · intro w hw m hm t hp
    have hnil : (st.jobs.filterMap (toE x.1)).filter (fun e => decide (-1 < e.start)) = [] := by
      rw [List.filter_eq_nil_iff]
      intro e he hlt
      obtain ⟨a, ha, hae⟩ := List.mem_filterMap.1 he
      have := hid.2 a ha
      rw [decide_eq_true_eq, (toE_spec hae).2.2.1] at hlt
      omega
    change (m.id, t) ∈ x.1.preds ++ ((st.jobs.filterMap (toE x.1)).filter (fun e => decide (-1 < e.start))).map _ at hp
    rw [hnil, List.map_nil, List.append_nil] at hp
    exact going_new hs hinv hg hnew w hw m hm t hp

/-- The idle groups are stuck groups, at their places. -/
theorem idles_stuck {cf : Conf} {s : RS} {now : Int} {ctx c1 : Kao.Ctx} {db db1 : DB} {ss0 : Kao.SlotSet} {W : List Kao.Job} {js : List Kao.Job} {sets : List (String × Kao.SlotSet)}
    {sched : List EJob} (hs : Sound db) (hbeg : ss0.begin_ = now) (hp : Prev js) (hcal : ctx.cal = none) (hsi : Simple db)
    (hi : init ctx s cf.sec now db = some (db1, c1, sets, sched, js)) :
    ∀ (gs : List Grp) (pre : List Grp) (done : List Nat) (Q : List EJob) (x x' : DB × Kao.Ctx × List (String × Kao.SlotSet)),
    groups s cf.sec cf.timeout now js pre (db1, c1, sets) = some x → Going s now ctx db ss0 W done Q x → Given gs db → (∀ g ∈ gs, ∀ w ∈ g.waiting, w ∈ W) →
    (∀ g ∈ gs, ∀ w ∈ g.waiting, w.id ∉ done) → groups s cf.sec cf.timeout now js gs x = some x' →
    (1 ≤ idles s cf.sec cf.timeout now js gs x → ∃ mid g post, gs = mid ++ g :: post ∧ Stuck cf ctx s now db (pre ++ mid) g) ∧
    (2 ≤ idles s cf.sec cf.timeout now js gs x → ∃ mid g mid' g' post, gs = mid ++ g :: mid' ++ g' :: post ∧ Stuck cf ctx s now db (pre ++ mid) g ∧
      Stuck cf ctx s now db (pre ++ (mid ++ g :: mid')) g')
  | [], _, _, _, _, _, _, _, _, _, _, _ => ⟨fun h => by simp [idles] at h, fun h => by simp [idles] at h⟩
  | g :: gs, pre, done, Q, x, x', hpre, hinv, hg, hW, hnew, h => by
    unfold groups at h
    cases h1 : group s cf.sec cf.timeout now js g x with
    | none => rw [h1] at h; simp at h
    | some x1 =>
      rw [h1, Option.bind_some] at h
      obtain ⟨g1, g2, g3⟩ := given_cons hg
      obtain ⟨Q1, i1⟩ := group_step hbeg hinv hp hcal hsi g1 (hW g (by simp)) (hnew g (by simp)) h1
      have hpre1 : groups s cf.sec cf.timeout now js (pre ++ [g]) (db1, c1, sets) = some x1 := by
        rw [groups_append, hpre, Option.bind_some]
        unfold groups groups
        rw [h1]
        rfl
      have hstuck : idle s cf.sec now js g x = true → Stuck cf ctx s now db pre g := by
        intro hid
        obtain ⟨a1, a2⟩ := idle_spec hs hsi hinv g1 (hnew g (by simp)) h1 hid
        obtain ⟨d2, c2, s2⟩ := x1
        exact ⟨a1, db1, c1, sets, sched, js, d2, c2, s2, hi, hpre1, a2⟩
      obtain ⟨r1, r2⟩ := idles_stuck hs hbeg hp hcal hsi hi gs (pre ++ [g]) _ Q1 x1 x' hpre1 i1 g2 (fun g' hg' => hW g' (List.mem_cons_of_mem _ hg')) (by
        intro g' hg' w' hw'
        rw [List.mem_append, not_or]
        refine ⟨?_, hnew g' (List.mem_cons_of_mem _ hg') w' hw'⟩
        intro hm
        obtain ⟨w, hw, e⟩ := List.mem_map.1 hm
        exact g3 g' hg' w' hw' w hw e) h
      have hun : idles s cf.sec cf.timeout now js (g :: gs) x = (if idle s cf.sec now js g x then 1 else 0) + idles s cf.sec cf.timeout now js gs x1 := by
        show (if idle s cf.sec now js g x then 1 else 0) + (match group s cf.sec cf.timeout now js g x with
          | none => 0
          | some x' => idles s cf.sec cf.timeout now js gs x') = _
        rw [h1]
      rw [hun]
      have hmove : ∀ l : List Grp, pre ++ [g] ++ l = pre ++ (g :: l) := fun l => by simp
      by_cases hid : idle s cf.sec now js g x = true
      · rw [if_pos hid]
        refine ⟨fun _ => ⟨[], g, gs, rfl, by rw [List.append_nil]; exact hstuck hid⟩, fun h2 => ?_⟩
        obtain ⟨mid, g', post, e, hst⟩ := r1 (by omega)
        exact ⟨[], g, mid, g', post, by rw [e]; rfl, by rw [List.append_nil]; exact hstuck hid, by rw [hmove] at hst; exact hst⟩
      · rw [if_neg hid]
        refine ⟨fun h1' => ?_, fun h2 => ?_⟩
        · obtain ⟨mid, g', post, e, hst⟩ := r1 (by omega)
          exact ⟨g :: mid, g', post, by rw [e]; rfl, by rw [hmove] at hst; exact hst⟩
        · obtain ⟨mid, ga, mid', gb, post, e, hst, hst'⟩ := r2 (by omega)
          refine ⟨g :: mid, ga, mid', gb, post, by rw [e]; rfl, by rw [hmove] at hst; exact hst, ?_⟩
          rw [hmove] at hst'
          exact hst'

/-- With at most one stuck group, at most one group is idle. -/
theorem idles_le {cf : Conf} {s : RS} {now : Int} {ctx c1 : Kao.Ctx} {db db1 : DB} {gs : List Grp} {js : List Kao.Job} {sets : List (String × Kao.SlotSet)} {sched : List EJob}
    {x' : DB × Kao.Ctx × List (String × Kao.SlotSet)} (hr : Regular cf ctx s gs now db) (hi : init ctx s cf.sec now db = some (db1, c1, sets, sched, js))
    (hg : groups s cf.sec cf.timeout now js gs (db1, c1, sets) = some x') (hst : AtMostOneStuck cf ctx s gs now db) : ¬ 2 ≤ idles s cf.sec cf.timeout now js gs (db1, c1, sets) := by
  intro h2
  obtain ⟨rfl, rfl, hp, _, ss0, hb⟩ := init_spec hr.sound hr.onTime hr.simple hr.numbered hr.noCalendar hr.date.2 hi
  have h0 : Going s now c1 db ss0 (gs.flatMap (·.waiting)) [] [] (started s db, c1, sets) :=
    ⟨rfl, rfl, rfl, by simp, by simp, rfl, ⟨ss0, hb.set_, hb.ok, hb.begin_, fun _ _ h => h, by simp⟩, by simp, List.Pairwise.nil, by simp, by simp⟩
  obtain ⟨mid, g, mid', g', post, e, a, b⟩ := (idles_stuck hr.sound hb.begin_ hp hr.noCalendar hr.simple hi gs [] [] [] _ _ rfl h0 hr.given
    (fun g hg w hw => List.mem_flatMap.2 ⟨g, hg, hw⟩) (by simp) hg).2 h2
  rw [List.nil_append] at a b
  exact hst mid g mid' g' post e a b

/-- When a single group has waiting jobs, at most one is stuck. -/
theorem one_group (cf : Conf) (ctx : Kao.Ctx) (s : RS) (gs : List Grp) (now : Int) (db : DB) (h : (gs.filter (fun g => !g.waiting.isEmpty)).length ≤ 1) :
    AtMostOneStuck cf ctx s gs now db := by
  rintro pre g mid g' post rfl ⟨h1, _⟩ ⟨h2, _⟩
  have e1 : (!g.waiting.isEmpty) = true := by cases hw : g.waiting with
    | nil => exact absurd hw h1
    | cons => rfl
  have e2 : (!g'.waiting.isEmpty) = true := by cases hw : g'.waiting with
    | nil => exact absurd hw h2
    | cons => rfl
  rw [List.filter_append, List.filter_append, List.filter_cons_of_pos (p := fun g : Grp => !g.waiting.isEmpty) e1, List.filter_cons_of_pos (p := fun g : Grp => !g.waiting.isEmpty) e2] at h
  simp only [List.length_append, List.length_cons] at h
  omega

/-- **C98.** A regular round, whose jobs can be read, always ends, with the exit code 0 or 2: no exception, no endless loop, when at most one group of queues has waiting jobs and no date for
any of them. -/
theorem round_total_partial (cf : Conf) (ctx : Kao.Ctx) (susp labels : List String) (rs : List Res) (s : RS) (ord : List Row → List Row) (gs : List Grp) (now : Int) (db : DB)
    (hids : (rs.map Res.id).Nodup) (hbuild : build susp labels rs = some s) (hord : ∀ l, (ord l).Perm l) (hr : Regular cf ctx s gs now db) (hl : Legible labels rs gs) (ht : Tame db)
    (hst : AtMostOneStuck cf ctx s gs now db) :
    ∃ db' code, Round.round cf ctx s ord gs now db = some (db', code) ∧ (code = 0 ∨ code = 2) := by
  obtain ⟨ss, sched, js, hi, h1, hj⟩ := init_total (ctx := ctx) hr.sound hr.onTime hr.simple hr.numbered hr.noCalendar hr.date.2 (fun j hj ho => (ht j hj ho).1)
  obtain ⟨_, _, hp, _, ss0, hb⟩ := init_spec hr.sound hr.onTime hr.simple hr.numbered hr.noCalendar hr.date.2 hi
  have hgok : ∀ g ∈ gs, ∀ w ∈ g.waiting, Kao.Legible (hyOf s) w := fun g hg w hw =>
    ⟨fun m hm => ((hl g hg w hw).2 m hm).1, (hl g hg w hw).1, fun m hm => groupOk_of hids hbuild ((hl g hg w hw).2 m hm).2.2 ((hl g hg w hw).2 m hm).2.1⟩
  have h0 : Going s now ctx db ss0 (gs.flatMap (·.waiting)) [] [] (started s db, ctx, [("default", ss)]) :=
    ⟨rfl, rfl, rfl, by simp, by simp, rfl, ⟨ss0, hb.set_, hb.ok, hb.begin_, fun _ _ h => h, by simp⟩, by simp, List.Pairwise.nil, by simp, by simp⟩
  obtain ⟨⟨db2, c2, sets2⟩, hg⟩ := groups_total (sec := cf.sec) (timeout := cf.timeout) hb.begin_ hp hr.noCalendar hr.simple gs [] [] ss _ h0 hr.given
    (fun g hg w hw => List.mem_flatMap.2 ⟨g, hg, hw⟩) (by simp) rfl h1 hgok
  have hidl := idles_le hr hi hg hst
  unfold round
  rw [hi]
  dsimp only
  rw [hg]
  dsimp only
  rw [if_neg hidl]
  refine launchRound_total ?_ ?_
  · intro r hr'
    rw [(hord _).mem_iff, List.mem_filter] at hr'
    have := hr'.2
    simp only [toLaunchRow, decide_eq_true_eq] at this
    exact this.2
  · intro k b hk
    obtain ⟨e, he, rfl, hbe, _⟩ := (beMap_lookup sched k).1 b hk
    exact (ht _ (hj e he).1 (hj e he).2).2 hbe

/-! ## The row of the default values -/

theorem default_join {db : DB} (h0 : ∀ m ∈ db.molds, m.id ≠ 0) : join { db with preds := db.preds ++ [(0, 0)], gres := db.gres ++ [(0, 0)] } = join db := by
  unfold join
  dsimp only
  have hnil : db.molds.filter (fun m => decide (m.id = 0)) = [] := by
    rw [List.filter_eq_nil_iff]
    intro m hm
    simpa using h0 m hm
  rw [List.flatMap_append, List.flatMap_singleton]
  dsimp only
  rw [hnil, List.flatMap_nil, List.append_nil]
  apply List.flatMap_congr
  intro p hp
  apply List.flatMap_congr
  intro m hm
  obtain ⟨m1, m2⟩ := List.mem_filter.1 hm
  have hne : p.1 ≠ 0 := by
    have := h0 m m1
    rw [of_decide_eq_true m2] at this
    exact this
  rw [List.filter_append, List.filter_cons_of_neg (by simpa using fun e => hne e.symm), List.filter_nil, List.append_nil]

/-- No query on the Gantt sees the row of the default values. -/
theorem saveRows_join (s : RS) (db db' : DB) (l : List EJob) (h0 : ∀ m ∈ db.molds, m.id ≠ 0) (h : saveRows s db l = some db') : join db' = join (saveAssigns s db l) := by
  unfold saveRows at h
  split at h
  · rename_i e
    simp only [Option.some.injEq] at h
    subst h; subst e
    simp [saveAssigns]
  · split at h
    · rename_i hall
      split at h
      · simp at h
      · simp only [Option.some.injEq] at h
        subst h
        rw [default_join h0]
        have hnil : l.filter (fun e => decide (-1 < e.start)) = [] := by
          rw [List.filter_eq_nil_iff]
          intro e he hlt
          rw [List.all_eq_true] at hall
          have := hall e he
          rw [decide_eq_true_eq] at this hlt
          omega
        unfold saveAssigns
        rw [hnil]
        simp
    · simp only [Option.some.injEq] at h
      rw [← h]

/-- The flush of the next round deletes the row of the default values. -/
theorem saveRows_flush (db : DB) (h0 : ∀ m ∈ db.molds, m.id ≠ 0) :
    flush (reservationsToKeep { db with preds := db.preds ++ [(0, 0)], gres := db.gres ++ [(0, 0)] }) { db with preds := db.preds ++ [(0, 0)], gres := db.gres ++ [(0, 0)] } =
      flush (reservationsToKeep db) db := by
  have hk : reservationsToKeep { db with preds := db.preds ++ [(0, 0)], gres := db.gres ++ [(0, 0)] } = reservationsToKeep db := by
    unfold reservationsToKeep
    dsimp only
    congr 1
    apply List.filter_congr
    intro m hm
    have hne : ¬ (0 : Nat) = m.id := fun e => h0 m hm e.symm
    simp [List.any_append, hne]
  have h00 : (reservationsToKeep db).contains 0 = false := by
    rw [Bool.eq_false_iff]
    intro hc
    rw [List.contains_iff_mem] at hc
    unfold reservationsToKeep at hc
    obtain ⟨m, hm, e⟩ := List.mem_map.1 hc
    exact h0 m (List.mem_filter.1 hm).1 e
  rw [hk]
  unfold flush
  split
  · dsimp only
    rw [List.filter_append, List.filter_append, List.filter_cons_of_neg (by rw [h00]; simp), List.filter_cons_of_neg (by rw [h00]; simp)]
    simp
  · rfl

/-- Of two lists of jobs without any date, saved one after the other (whatever was saved in between), the second one is refused. -/
theorem saveRows_twice (s : RS) (db db1 db2 : DB) (l l' : List EJob) (h : saveRows s db l = some db1) (hne : l ≠ []) (hl : ∀ e ∈ l, e.start ≤ -1)
    (hmore : ∀ p ∈ db1.preds, p ∈ db2.preds) (hne' : l' ≠ []) (hl' : ∀ e ∈ l', e.start ≤ -1) : saveRows s db2 l' = none := by
  have hall : ∀ l : List EJob, (∀ e ∈ l, e.start ≤ -1) → l.all (fun e => decide (e.start ≤ -1)) = true := fun l hl => by
    rw [List.all_eq_true]
    intro e he
    simpa using hl e he
  unfold saveRows at h
  rw [if_neg hne, if_pos (hall l hl)] at h
  split at h
  · simp at h
  · simp only [Option.some.injEq] at h
    unfold saveRows
    rw [if_neg hne', if_pos (hall l' hl'), if_pos]
    rw [Bool.or_eq_true]
    left
    rw [List.any_eq_true]
    exact ⟨(0, 0), hmore _ (by rw [← h]; simp), by simp⟩

/-! ## A case which meets the hypotheses -/

/-- The second round of the history of C95: a best-effort job is running and must be killed. -/
theorem total_example : (exRows.map Res.id).Nodup ∧ build [] ["id"] exRows = some exS ∧ (∀ l : List Row, (id l).Perm l) ∧ Regular { sec := 60 } exCtx exS exG2 200 exDb2 ∧
    Legible ["id"] exRows exG2 ∧ Tame exDb2 ∧ AtMostOneStuck { sec := 60 } exCtx exS exG2 200 exDb2 ∧ (∃ j ∈ exDb2.jobs, Occupies j ∧ BestEffort j) ∧ exRun exG2 200 exDb2 = some (exDb3, 2) := by
  refine ⟨by decide, exS_build, fun l => List.Perm.refl l, exRegular (by decide +kernel) (by decide +kernel) (by decide +kernel) (by decide +kernel) (by unfold BestEffort; decide +kernel) (by decide +kernel)
      ⟨by decide +kernel, by decide +kernel, by decide +kernel, by decide +kernel, by decide +kernel⟩ (by decide +kernel), ?_, ?_, ?_⟩
  · intro g hg w hw
    have h1 : ∀ g ∈ exG2, ∀ w ∈ g.waiting, w.keyCache = [] ∧ ∀ m ∈ w.mlds, 0 < m.walltime := by decide +kernel
    have h2 : ∀ g ∈ exG2, ∀ w ∈ g.waiting, ∀ m ∈ w.mlds, Readable ["id"] m.groups := by unfold Readable; decide +kernel
    have h3 : ∀ g ∈ exG2, ∀ w ∈ g.waiting, ∀ m ∈ w.mlds, Counts m.groups := by unfold Counts; decide +kernel
    exact ⟨Or.inl (h1 g hg w hw).1, fun m hm => ⟨(h1 g hg w hw).2 m hm, h2 g hg w hw m hm, Or.inr (h3 g hg w hw m hm)⟩⟩
  · unfold Tame BestEffort; decide +kernel
  · exact ⟨one_group _ _ _ _ _ _ (by decide +kernel), by unfold BestEffort; decide +kernel, by decide +kernel⟩

/-! ## Where the property fails -/

/-- The job 1 asks for `groups` during `w`; the job 2 is an ordinary one. -/
def oddGs (w : Int) (groups : List Group) : List Grp := [⟨["default"], [{ id := 1, mlds := [⟨11, w, groups⟩] }, exWait 3 13 20], []⟩]

def oddDb : DB := ⟨[exJob 1 "Waiting" [] 0 0, exJob 3 "Waiting" [] 0 0], [⟨11, 1, 0⟩, ⟨13, 3, 20⟩], [], [], [], [], [], []⟩

/-- The job 5 runs with the types `types` and the checkpoint `cp`; it holds the resource 7 only. -/
def runDb (types : List (List Char)) (cp : Nat) : DB :=
  ⟨[{ exJob 5 "Running" types 50 15 with checkpoint := cp }, exJob 3 "Waiting" [] 0 0, exJob 1 "Waiting" [] 0 0, exJob 2 "Waiting" [] 0 0],
   [⟨15, 5, 500⟩, ⟨13, 3, 20⟩, ⟨11, 1, 20⟩, ⟨12, 2, 20⟩], [], [], [(15, 7)], [], [], []⟩

def runGs : List Grp := [⟨["default"], [exWait 3 13 20, exWait 1 11 20, exWait 2 12 20], []⟩]

/-- Three dead machines. -/
def deadRows : List Res := [5, 7, 9].map (fun i => ⟨i, "Dead", "default", 0, "n", fun _ => ""⟩)

def deadS : RS := (build [] ["id"] deadRows).getD (ResSet.init [])

/-- **C98** is violated: one waiting job with the walltime 0 makes each round fail with an exception, no job is launched. -/
theorem walltime_violated : Regular { sec := 60 } exCtx exS (oddGs 0 [⟨[("id", 1)], {0, 1, 2}⟩]) 100 oddDb ∧ Tame oddDb ∧
    exRun (oddGs 0 [⟨[("id", 1)], {0, 1, 2}⟩]) 100 oddDb = none ∧ (∃ db', exRun (oddGs 10 [⟨[("id", 1)], {0, 1, 2}⟩]) 100 oddDb = some (db', 0) ∧ ∀ j ∈ db'.jobs, j.state = "toLaunch") := by
  refine ⟨exRegular (by decide +kernel) (by decide +kernel) (by decide +kernel) (by decide +kernel) (by unfold BestEffort; decide +kernel) (by decide +kernel)
      ⟨by decide +kernel, by decide +kernel, by decide +kernel, by decide +kernel, by decide +kernel⟩ (by decide +kernel), by unfold Tame BestEffort; decide +kernel, by decide +kernel,
    ((exRun (oddGs 10 [⟨[("id", 1)], {0, 1, 2}⟩]) 100 oddDb).map (·.1)).getD oddDb, by decide +kernel, by decide +kernel⟩

/-- **C98** is violated: the same with a request of a level which is not in the hierarchy. -/
theorem level_violated : Regular { sec := 60 } exCtx exS (oddGs 10 [⟨[("rack", 1)], {0, 1, 2}⟩]) 100 oddDb ∧ Tame oddDb ∧
    exRun (oddGs 10 [⟨[("rack", 1)], {0, 1, 2}⟩]) 100 oddDb = none := by
  refine ⟨exRegular (by decide +kernel) (by decide +kernel) (by decide +kernel) (by decide +kernel) (by unfold BestEffort; decide +kernel) (by decide +kernel)
      ⟨by decide +kernel, by decide +kernel, by decide +kernel, by decide +kernel, by decide +kernel⟩ (by decide +kernel), by unfold Tame BestEffort; decide +kernel, by decide +kernel⟩

/-- **C98** is violated: a request with a keyword (here ALL) raises an exception when no machine is usable; a request with a number does not. -/
theorem dead_violated : round { sec := 60 } exCtx deadS id (oddGs 10 [⟨[("id", -1)], {0, 1, 2}⟩]) 100 oddDb = none ∧
    ∃ db', round { sec := 60 } exCtx deadS id (oddGs 10 [⟨[("id", 1)], {0, 1, 2}⟩]) 100 oddDb = some (db', 0) := by
  refine ⟨by decide +kernel, ((round { sec := 60 } exCtx deadS id (oddGs 10 [⟨[("id", 1)], {0, 1, 2}⟩]) 100 oddDb).map (·.1)).getD oddDb, by decide +kernel⟩

/-- **C98** is violated: a running job with a malformed type makes each round fail until its end. -/
theorem type_violated : Regular { sec := 60 } exCtx exS runGs 100 (runDb [txt "timesharing=alice"] 0) ∧ exRun runGs 100 (runDb [txt "timesharing=alice"] 0) = none ∧
    ∃ db', exRun runGs 100 (runDb [] 0) = some (db', 0) := by
  refine ⟨exRegular (by decide +kernel) (by decide +kernel) (by decide +kernel) (by decide +kernel) (by unfold BestEffort; decide +kernel) (by decide +kernel)
      ⟨by decide +kernel, by decide +kernel, by decide +kernel, by decide +kernel, by decide +kernel⟩ (by decide +kernel), by decide +kernel,
    ((exRun runGs 100 (runDb [] 0)).map (·.1)).getD oddDb, by decide +kernel⟩

/-- **C98** is violated: when the machine of a best-effort job with a checkpoint is needed, the round fails with an exception: nothing is killed, nothing is launched. Without checkpoint
the round ends with the code 2 and the job is killed. -/
theorem checkpoint_violated : Regular { sec := 60 } exCtx exS runGs 100 (runDb [txt "besteffort"] 30) ∧ exRun runGs 100 (runDb [txt "besteffort"] 30) = none ∧
    ∃ db', exRun runGs 100 (runDb [txt "besteffort"] 0) = some (db', 2) ∧ db'.frag = [5] := by
  refine ⟨exRegular (by decide +kernel) (by decide +kernel) (by decide +kernel) (by decide +kernel) (by unfold BestEffort; decide +kernel) (by decide +kernel)
      ⟨by decide +kernel, by decide +kernel, by decide +kernel, by decide +kernel, by decide +kernel⟩ (by decide +kernel), by decide +kernel,
    ((exRun runGs 100 (runDb [txt "besteffort"] 0)).map (·.1)).getD oddDb, by decide +kernel, by decide +kernel⟩

/-- The job 1 is in the queue admin, the job 2 in the queue besteffort, the job 3 in the queue default; the jobs 1 and 2 ask for `n` and `n'` machines (there are three). -/
def stuckGs (n n' : Int) : List Grp :=
  [⟨["admin"], [{ id := 1, mlds := [⟨11, 20, [⟨[("id", n)], {0, 1, 2}⟩]⟩] }], []⟩, ⟨["default"], [exWait 3 13 20], []⟩,
   ⟨["besteffort"], [{ id := 2, mlds := [⟨12, 20, [⟨[("id", n')], {0, 1, 2}⟩]⟩] }], []⟩]

def stuckDb : DB := ⟨[exJob 1 "Waiting" [] 0 0, exJob 2 "Waiting" [] 0 0, exJob 3 "Waiting" [] 0 0], [⟨11, 1, 20⟩, ⟨12, 2, 20⟩, ⟨13, 3, 20⟩], [], [], [], [], [], []⟩

def stuckAfter (n n' : Int) : DB := ((exRun (stuckGs n n') 100 stuckDb).map (·.1)).getD oddDb

/-- **C98** is violated: as long as two groups of queues have waiting jobs and no machines for any of them, each round fails with an exception (the second insertion of the row of the
default values), and the job 3, which could be launched, is not. One such group is harmless. -/
theorem stuck_violated : Regular { sec := 60 } exCtx exS (stuckGs 4 4) 100 stuckDb ∧ Legible ["id"] exRows (stuckGs 4 4) ∧ Tame stuckDb ∧ exRun (stuckGs 4 4) 100 stuckDb = none ∧
    exRun (stuckGs 4 1) 100 stuckDb = some (stuckAfter 4 1, 0) ∧ exRun (stuckGs 1 4) 100 stuckDb = some (stuckAfter 1 4, 0) ∧
    ∃ j ∈ (stuckAfter 4 1).jobs, j.id = 3 ∧ j.state = "toLaunch" := by
  refine ⟨exRegular (by decide +kernel) (by decide +kernel) (by decide +kernel) (by decide +kernel) (by unfold BestEffort; decide +kernel) (by decide +kernel)
      ⟨by decide +kernel, by decide +kernel, by decide +kernel, by decide +kernel, by decide +kernel⟩ (by decide +kernel), ?_, by unfold Tame BestEffort; decide +kernel, by decide +kernel,
    by decide +kernel, by decide +kernel, by decide +kernel⟩
  intro g hg w hw
  have h1 : ∀ g ∈ stuckGs 4 4, ∀ w ∈ g.waiting, w.keyCache = [] ∧ ∀ m ∈ w.mlds, 0 < m.walltime := by decide +kernel
  have h2 : ∀ g ∈ stuckGs 4 4, ∀ w ∈ g.waiting, ∀ m ∈ w.mlds, Readable ["id"] m.groups := by unfold Readable; decide +kernel
  have h3 : ∀ g ∈ stuckGs 4 4, ∀ w ∈ g.waiting, ∀ m ∈ w.mlds, Counts m.groups := by unfold Counts; decide +kernel
  exact ⟨Or.inl (h1 g hg w hw).1, fun m hm => ⟨(h1 g hg w hw).2 m hm, h2 g hg w hw m hm, Or.inr (h3 g hg w hw m hm)⟩⟩

end Oar.Round
