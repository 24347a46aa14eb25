import Verif.WalltimeRoundMain

/-!
# C121 : when the round does not raise, where the property fails, examples
-/

namespace Oar.WalltimeRound

open Oar.Walltime

theorem decide_raised {env : Env} {db : Db} {e : Entry} (h : decideFit env db e = .raised) :
    0 < e.req.pending ∧ ((∃ v, typeOf e.job "inner" = some v ∧ containerEnd env db v = none) ∨ exclude e = none) := by
  unfold decideFit at h
  split at h
  · rename_i hp
    refine ⟨hp, ?_⟩
    split at h
    · simp at h
    split at h
    · rename_i hto
      left
      unfold upTo at hto
      split at hto
      · simp at hto
      · rename_i v hv
        exact ⟨v, hv, by simpa using hto⟩
    · split at h
      · rename_i hex; exact Or.inr hex
      · dsimp only at h
        split at h <;> simp at h
  · split at h <;> simp at h

theorem exclude_none {e : Entry} (h : exclude e = none) : ∃ v ∈ ["user,*", "*,user", "name,*", "*,name"], (⟨"timesharing", some v⟩ : Ty) ∈ e.job.types := by
  unfold exclude at h
  split at h
  · simp at h
  · simp at h
  · split at h
    · simp at h
    · simp at h
    · rename_i v hv
      have hm := typeOf_mem hv
      refine ⟨v, ?_, hm⟩
      split at h
      · rename_i h1; rcases h1 with rfl | rfl <;> simp
      split at h
      · rename_i h1; rcases h1 with rfl | rfl <;> simp
      split at h
      · simp at h
      split at h <;> simp at h

/-- **C121 (the round goes to its end), partial.** The round does not raise when, among the jobs that ask for more time, the inner ones have a
container which is running, and none is of a type of timesharing by user only or by name only. -/
theorem round_completes_partial (env : Env) (db : Db) (rows : List Row) (hr : rows.Perm (select db)) (k : Keys db)
    (hinner : ∀ j m w, Asks db j m w → 0 < w.pending → ∀ v, ⟨"inner", v⟩ ∈ j.types → ∃ cid, Designates env v cid ∧ ∃ c ∈ db.jobs, c.id = cid ∧
      c.state = "Running" ∧ ∃ m ∈ db.molds, m.id = c.assigned)
    (htime : ∀ j m w, Asks db j m w → 0 < w.pending → ∀ v ∈ ["user,*", "*,user", "name,*", "*,name"], (⟨"timesharing", some v⟩ : Ty) ∉ j.types) :
    (process env rows db).2 = true := by
  obtain ⟨c1, c2, c3⟩ := considered_exact db rows hr k
  obtain ⟨_, _, _, r4⟩ := run_spec env (group rows) db c1
  unfold process
  cases hb : (run env (group rows) db).2 with
  | true => rfl
  | false =>
    exfalso
    obtain ⟨e, he, d, hbt, hf⟩ := r4 hb
    obtain ⟨m, ha, _⟩ := (c2 e.job e.req e.walltime).2 ⟨e, he, rfl, rfl, rfl⟩
    obtain ⟨hp, hc⟩ := decide_raised hf
    rcases hc with ⟨v, hv, hn⟩ | hx
    · obtain ⟨cid, hcid, c, hc, hid, hrun, mm, hm, hma⟩ := hinner e.job m e.req ha hp v (typeOf_mem hv)
      unfold containerEnd at hn
      rw [(inner_exact env v cid).2 hcid] at hn
      dsimp only at hn
      rw [hbt.static.jobs] at hn
      have hck : db.jobs.find? (fun j => j.id == cid && j.state == "Running") = some c := by
        cases hfnd : db.jobs.find? (fun j => j.id == cid && j.state == "Running") with
        | none =>
          have := List.find?_eq_none.1 hfnd c hc
          simp [hid, hrun] at this
        | some c' =>
          have h1 := List.mem_of_find?_eq_some hfnd
          have h2 := List.find?_some hfnd
          simp only [Bool.and_eq_true, beq_iff_eq] at h2
          rw [List.inj_on_of_nodup_map k.jobs h1 hc (h2.1.trans hid.symm)]
      rw [hck] at hn
      dsimp only at hn
      rw [Option.map_eq_none_iff] at hn
      have : (mm.id, mm.job) ∈ db.molds.map (fun m => (m.id, m.job)) := List.mem_map.2 ⟨mm, hm, rfl⟩
      rw [← hbt.static.molds] at this
      obtain ⟨m', hm', he'⟩ := List.mem_map.1 this
      simp only [Prod.mk.injEq] at he'
      have := List.find?_eq_none.1 hn m' hm'
      simp [he'.1, hma] at this
    · obtain ⟨v, hv, hm⟩ := exclude_none hx
      exact htime e.job m e.req ha hp v hv hm

/-! ## Examples -/

def exEnv : Env := ⟨2000, 60, fun _ _ => 0, fun _ _ => 0, fun t => if t = "1" then some 1 else none, fun l => l⟩
def job1 : Job := ⟨1, "john", some "a", "default", "Running", 1000, 11, "None", []⟩
def next9 : Job := ⟨9, "mary", none, "default", "Waiting", 0, 0, "None", []⟩

/-- Job 1 runs on the resources 1 and 2 until 4600 and asks for 600 s; job 2 runs on the resource 3 until 5000 and asks for 500 s less; job 9 is
predicted at 5000 on the resource 2; job 3 is running and does not ask. -/
def exDb : Db :=
  { jobs := [job1, ⟨2, "paul", none, "default", "Running", 1400, 21, "None", []⟩, ⟨3, "paul", none, "default", "Running", 1500, 31, "None", []⟩, next9]
    molds := [⟨11, 1, 3600⟩, ⟨21, 2, 3600⟩, ⟨31, 3, 3600⟩, ⟨91, 9, 100⟩]
    assigned := [(11, 1), (11, 2), (21, 3), (31, 4)]
    wtc := [(1, ⟨600, false, false, 0, 0, 0⟩), (2, ⟨-500, false, false, 0, 0, 0⟩)]
    preds := [(91, 5000)]
    gres := [(91, 2)]
    log := []
    events := [] }

theorem exDistinct : Distinct exEnv := fun _ _ => Iff.rfl

/-- The hypotheses are met, with rows in another order: job 1 gets the 339 s that are free, job 2 gives its time back. -/
theorem round_example : Keys exDb ∧ Asks exDb job1 ⟨11, 1, 3600⟩ ⟨600, false, false, 0, 0, 0⟩ ∧
    (select exDb).reverse.Perm (select exDb) ∧ Dates exEnv exDb (process exEnv (select exDb).reverse exDb).1 ∧
    (process exEnv (select exDb).reverse exDb).2 = true ∧
    (process exEnv (select exDb).reverse exDb).1.molds = [⟨11, 1, 3939⟩, ⟨21, 2, 3100⟩, ⟨31, 3, 3600⟩, ⟨91, 9, 100⟩] ∧
    (process exEnv (select exDb).reverse exDb).1.wtc = [(1, ⟨261, false, false, 339, 0, 0⟩), (2, ⟨0, false, false, -500, 0, 0⟩)] ∧
    (process exEnv (select exDb).reverse exDb).1.events = [1, 2] := by
  have hm : (process exEnv (select exDb).reverse exDb).1.molds = [⟨11, 1, 3939⟩, ⟨21, 2, 3100⟩, ⟨31, 3, 3600⟩, ⟨91, 9, 100⟩] := by decide +kernel
  refine ⟨⟨by decide, by decide, by decide⟩, ⟨by decide, rfl, by decide, rfl, by decide, by decide, 1, by decide⟩, List.reverse_perm _, ⟨by decide, ?_, ?_⟩,
    by decide +kernel, hm, by decide +kernel, by decide +kernel⟩
  · decide +kernel
  · rw [hm]
    intro m hm'
    rcases hm' with h | h
    · revert m; decide
    · revert m; decide

/-! ## Where the property fails -/

/-- A job with another moldable, which was not chosen: its walltime is changed too, by another amount, so that the same request
(which `oarsub --resubmit` submits again) now asks for something else. -/
theorem other_moldables_violated : ∃ db : Db, Keys db ∧ ∃ j m w, Asks db j m w ∧ ∃ o ∈ db.molds, o.job = j.id ∧ o.id ≠ j.assigned ∧ o.walltime = 60 ∧
    (process exEnv (select db) db).2 = true ∧
    ∃ o' ∈ (process exEnv (select db) db).1.molds, o'.id = o.id ∧ o'.walltime = 3939 := by
  refine ⟨{ exDb with molds := ⟨12, 1, 60⟩ :: exDb.molds }, ⟨by decide, by decide, by decide⟩, job1, ⟨11, 1, 3600⟩, ⟨600, false, false, 0, 0, 0⟩,
    ⟨by decide, rfl, by decide, rfl, by decide, by decide, 1, by decide⟩, ⟨12, 1, 60⟩, by decide, rfl, by decide, rfl, by decide +kernel, ⟨12, 1, 3939⟩, by decide +kernel, rfl, rfl⟩

/-- A container and a job inside of it. -/
def conDb : Db :=
  { jobs := [⟨1, "john", none, "default", "Running", 1000, 11, "None", [⟨"container", none⟩]⟩, ⟨2, "john", none, "default", "Running", 1200, 21, "None", [⟨"inner", some "1"⟩]⟩]
    molds := [⟨11, 1, 7200⟩, ⟨21, 2, 3600⟩]
    assigned := [(11, 1), (11, 2), (21, 1)]
    wtc := [(1, ⟨-5000, false, false, 0, 0, 0⟩), (2, ⟨1000, false, false, 0, 0, 0⟩)]
    preds := []
    gres := []
    log := []
    events := [] }

/-- The reduction of a container does not look at the jobs inside of it: they end after it. When the rows of the inner job come first, it is even
extended in the same round. -/
theorem container_violated :
    (process exEnv (select conDb) conDb).2 = true ∧ (process exEnv (select conDb) conDb).1.molds = [⟨11, 1, 2200⟩, ⟨21, 2, 3600⟩] ∧
    (process exEnv (select conDb).reverse conDb).2 = true ∧ (process exEnv (select conDb).reverse conDb).1.molds = [⟨11, 1, 2200⟩, ⟨21, 2, 4600⟩] ∧
    (1000 + 2200 : Int) < 1200 + 3600 := by decide +kernel

/-- The result of a round depends on the order in which the server returns the rows. -/
theorem order_violated : ∃ db : Db, Keys db ∧ ∃ rows, rows.Perm (select db) ∧ (process exEnv rows db).1.molds ≠ (process exEnv (select db) db).1.molds := by
  refine ⟨conDb, ⟨by decide, by decide, by decide⟩, (select conDb).reverse, List.reverse_perm _, by decide +kernel⟩

/-- The flags are lost as soon as a part of the change is granted: what remains is not forced any more (nor allowed to delay the next jobs). -/
theorem force_lost_violated (db : Db) (e : Entry) (f : Int) (w : Nat × Wtc) (h : w ∈ (record db e f).wtc) (hj : w.1 = e.job.id) :
    w.2.force = false ∧ w.2.delay = false := by
  change w ∈ db.wtc.map (fun x => if x.1 = e.job.id then (x.1, newReq e.req f) else x) at h
  obtain ⟨x, _, rfl⟩ := List.mem_map.1 h
  split
  · exact ⟨rfl, rfl⟩
  · rename_i hn
    exfalso
    rw [if_neg hn] at hj
    exact hn hj

theorem force_lost_example : (process exEnv (select { exDb with wtc := [(1, ⟨600, true, false, 0, 0, 0⟩)] }) { exDb with wtc := [(1, ⟨600, true, false, 0, 0, 0⟩)] }).1.wtc =
    [(1, ⟨261, false, false, 339, 339, 0⟩)] := by decide +kernel

/-- A forced increase of a job of type `timesharing=user,*` raises, at every round and whatever the database: the text of the query is not
correct. The jobs considered after it are not processed. -/
theorem timesharing_violated (env : Env) (db : Db) (e : Entry) (es : List Entry) (hp : 0 < e.req.pending) (hf : e.req.force = true)
    (ht : e.job.types = [⟨"timesharing", some "user,*"⟩]) : run env (e :: es) db = (db, false) := by
  have hex : exclude e = none := by
    unfold exclude typeOf
    rw [ht]
    rfl
  have hup : upTo env db e (endOf env db e + fitOf env e) = some (endOf env db e + fitOf env e) := by
    unfold upTo typeOf
    rw [ht]
    rfl
  have hd : decideFit env db e = .raised := by
    unfold decideFit
    rw [if_pos hp, if_neg (by unfold tooEarly; simp [hf]), hup]
    dsimp only
    rw [hex]
  rw [run, hd]

theorem timesharing_example : (process exEnv (select { exDb with jobs := [{ job1 with types := [⟨"timesharing", some "user,*"⟩] },
    ⟨2, "paul", none, "default", "Running", 1400, 21, "None", []⟩] }) { exDb with jobs := [{ job1 with types := [⟨"timesharing", some "user,*"⟩] },
    ⟨2, "paul", none, "default", "Running", 1400, 21, "None", []⟩] }).2 = false ∧ (process exEnv (select { exDb with jobs := [{ job1 with types := [⟨"timesharing", some "user,*"⟩] },
    ⟨2, "paul", none, "default", "Running", 1400, 21, "None", []⟩] }) { exDb with jobs := [{ job1 with types := [⟨"timesharing", some "user,*"⟩] },
    ⟨2, "paul", none, "default", "Running", 1400, 21, "None", []⟩] }).1.wtc = exDb.wtc := by decide +kernel

/-- When the container of a running inner job is not running any more, the increase raises instead of being logged. -/
theorem container_gone_violated (env : Env) (db : Db) (e : Entry) (es : List Entry) (hp : 0 < e.req.pending) (hf : e.req.force = true) (v : Option String)
    (ht : typeOf e.job "inner" = some v) (hgone : ∀ j ∈ db.jobs, some j.id = innerOf env v → j.state ≠ "Running") : run env (e :: es) db = (db, false) := by
  have hc : containerEnd env db v = none := by
    unfold containerEnd
    cases hi : innerOf env v with
    | none => rfl
    | some cid =>
      dsimp only
      have : db.jobs.find? (fun j => j.id == cid && j.state == "Running") = none := by
        rw [List.find?_eq_none]
        intro j hj hh
        simp only [Bool.and_eq_true, beq_iff_eq] at hh
        exact hgone j hj (by rw [hh.1, hi]) hh.2
      rw [this]
  have hd : decideFit env db e = .raised := by
    unfold decideFit
    rw [if_pos hp, if_neg (by unfold tooEarly; simp [hf])]
    have : upTo env db e (endOf env db e + fitOf env e) = none := by unfold upTo; rw [ht]; dsimp only; rw [hc]; rfl
    rw [this]
  rw [run, hd]

/-- A crash between the two first commits: the time is recorded as granted, and the walltimes are those of before. -/
theorem crash_violated (db : Db) (e : Entry) (f : Int) : ∃ d ∈ commits db e f, d.molds = db.molds ∧
    reqsOf d e.job.id = (reqsOf db e.job.id).map (fun x => (x.1, newReq e.req f)) ∧ (newReq e.req f).granted = e.req.granted + f :=
  ⟨setReq db e.job.id (newReq e.req f), by simp [commits], rfl,
    filter_map_set Prod.fst (fun x : Nat × Wtc => (x.1, newReq e.req f)) (fun _ => rfl) e.job.id db.wtc, rfl⟩

/-- The last commit is what the rest of the round sees. -/
theorem commits_last (db : Db) (e : Entry) (f : Int) : (commits db e f).getLast? = some (record db e f) := rfl

/-- The metascheduler never processes a request: with the option `yes` it raises `TypeError` at every round, without it does nothing. -/
theorem call_violated (enabled : Option String) (db : Db) : (metaCall enabled db).1 = db ∧ ((metaCall enabled db).2 = false ↔ enabled = some "yes") := by
  unfold metaCall
  split
  · simp [*]
  · simp [*]

/-- Without security time, the job predicted right at the end of the job is ignored: the job is extended over it. -/
theorem zero_security_violated : (process { exEnv with sec := 0 } (select { exDb with preds := [(91, 4600)] }) { exDb with preds := [(91, 4600)] }).1.molds =
    [⟨11, 1, 4200⟩, ⟨21, 2, 3100⟩, ⟨31, 3, 3600⟩, ⟨91, 9, 100⟩] := by decide +kernel

/-- A job of the same user and the same name, with which the resource is shared (`timesharing=user,name`), prevents the increase: the query compares
its name with the text `$job_name`. -/
def tsDb : Db :=
  { exDb with
    jobs := [{ job1 with types := [⟨"timesharing", some "user,name"⟩] }, { job1 with id := 9, state := "Waiting", assigned := 0, types := [⟨"timesharing", some "user,name"⟩] }]
    wtc := [(1, ⟨600, false, false, 0, 0, 0⟩)]
    preds := [(91, 4620)] }

theorem shared_blocks_violated : (process exEnv (select tsDb) tsDb).2 = true ∧ (process exEnv (select tsDb) tsDb).1 = tsDb ∧
    (∀ j ∈ tsDb.jobs, ∀ k ∈ tsDb.jobs, Share j k) := by
  refine ⟨by decide +kernel, by decide +kernel, ?_⟩
  intro j hj k hk
  simp only [tsDb, List.mem_cons, List.not_mem_nil, or_false] at hj hk
  rcases hj with rfl | rfl <;> rcases hk with rfl | rfl <;>
    exact Or.inr (Or.inr (Or.inr ⟨"user,name", by simp, "user,name", by simp, by simp, by simp, rfl, rfl⟩))

/-- **C121** (violated), the general case: a job with `timesharing=user,name` or `timesharing=name,user` cannot be extended over any job predicted after it, even one of the same user
with the same name and the same types, unless it is best-effort or its name is literally `$job_name`. -/
theorem pair_blocks_violated {e : Entry} {v : String} (ht : ⟨"timesharing", some v⟩ ∈ e.job.types) (hv : v = "user,name" ∨ v = "name,user")
    (ho : ∀ t ∈ e.job.types, t.name ≠ "allowed" ∧ (t.name = "timesharing" → t.value = some v)) :
    ∃ ex, exclude e = some ex ∧ ∀ k : Job, skipped ex k = true ↔ ⟨"besteffort", none⟩ ∈ k.types ∨
      ((⟨"timesharing", some "user,name"⟩ ∈ k.types ∨ ⟨"timesharing", some "name,user"⟩ ∈ k.types) ∧ k.name = some "$job_name" ∧ k.user = e.job.user) := by
  have ha : typeOf e.job "allowed" = none := by
    cases h : typeOf e.job "allowed" with
    | none => rfl
    | some x => exact absurd rfl (ho _ (typeOf_mem h)).1
  have hs : typeOf e.job "timesharing" = some (some v) := by
    cases h : typeOf e.job "timesharing" with
    | none =>
      unfold typeOf at h
      rw [Option.map_eq_none_iff, List.find?_eq_none] at h
      exact absurd (h _ (List.mem_reverse.2 ht)) (by simp)
    | some x =>
      have hx : x = some v := (ho _ (typeOf_mem h)).2 rfl
      rw [hx]
  refine ⟨[⟨[⟨"timesharing", some "user,name"⟩, ⟨"timesharing", some "name,user"⟩], some "$job_name", some e.job.user⟩], ?_, ?_⟩
  · unfold exclude
    rw [ha, hs]
    dsimp only
    rcases hv with rfl | rfl <;> simp
  · intro k
    unfold skipped
    rw [List.any_eq_true]
    constructor
    · rintro ⟨t, ht, hc⟩
      simp only [List.any_cons, List.any_nil, Bool.or_false, Bool.or_eq_true, Bool.and_eq_true, beq_iff_eq, List.contains_cons, List.contains_nil,
        Option.isNone_some, Bool.false_eq_true, false_or, decide_eq_true_eq, Option.some.injEq] at hc
      rcases hc with hc | ⟨⟨hc, hn⟩, hu⟩
      · exact Or.inl (hc ▸ ht)
      · rcases hc with hc | hc
        · exact Or.inr ⟨Or.inl (hc ▸ ht), hn, hu⟩
        · exact Or.inr ⟨Or.inr (hc ▸ ht), hn, hu⟩
    · rintro (h | ⟨h | h, hn, hu⟩)
      · exact ⟨_, h, by simp⟩
      · exact ⟨_, h, by simp [hn, hu]⟩
      · exact ⟨_, h, by simp [hn, hu]⟩

example : skipped [⟨[⟨"timesharing", some "user,name"⟩, ⟨"timesharing", some "name,user"⟩], some "$job_name", some "bob"⟩]
    { job1 with types := [⟨"timesharing", some "user,name"⟩] } = false := by decide

end Oar.WalltimeRound
