import Verif.WalltimeRound

/-!
# C121 : a round of walltime changes on the whole database
-/

namespace Oar.WalltimeRound

open Oar.Walltime

/-! ## Specification -/

/-- The keys of the tables: a job has one row, one row of request; a moldable has one row. -/
structure Keys (db : Db) : Prop where
  jobs : (db.jobs.map Job.id).Nodup
  molds : (db.molds.map Mold.id).Nodup
  wtc : (db.wtc.map Prod.fst).Nodup

/-- A job to consider: it is running, it has a request which is not null, and its assigned moldable has resources. -/
structure Asks (db : Db) (j : Job) (m : Mold) (w : Wtc) : Prop where
  job : j ∈ db.jobs
  running : j.state = "Running"
  mold : m ∈ db.molds
  assigned : m.id = j.assigned
  req : (j.id, w) ∈ db.wtc
  pending : w.pending ≠ 0
  holds : ∃ r, (j.assigned, r) ∈ db.assigned

/-- The job holds the resource. -/
def Holds (db : Db) (j : Job) (r : Nat) : Prop := (j.assigned, r) ∈ db.assigned

/-- The seconds of a period of the log, up to now when it lasts. -/
def Lasted (env : Env) (r : Jobs.LogRow) : Int := max 0 ((if r.stop = 0 then env.now else r.stop) - r.start)

/-- The seconds during which the job was suspended, or about to be resumed. -/
def Susp (env : Env) (db : Db) (j : Job) : Int :=
  ((db.log.filter (fun r => decide (r.jid = j.id ∧ r.state ∈ ["Suspended", "Resuming"]))).map (Lasted env)).sum

theorem susp_exact (env : Env) (db : Db) (j : Job) : suspended env db j.id = Susp env db j := by
  unfold suspended Susp
  have h1 : (fun r : Jobs.LogRow => r.jid == j.id && (r.state == "Suspended" || r.state == "Resuming")) =
      (fun r => decide (r.jid = j.id ∧ r.state ∈ ["Suspended", "Resuming"])) := by
    funext r
    rw [Bool.eq_iff_iff]
    simp
  have h2 : Jobs.resTime env.now = Lasted env := by
    funext r
    unfold Jobs.resTime Lasted
    dsimp only
    split <;> split <;> omega
  rw [h1, h2]

/-- A job `k` is predicted at the date `s` on a resource of the job `j`. -/
def Predicted (db : Db) (j k : Job) (s : Int) : Prop :=
  k ∈ db.jobs ∧ ∃ m ∈ db.molds, m.job = k.id ∧ (m.id, s) ∈ db.preds ∧ ∃ r, (m.id, r) ∈ db.gres ∧ Holds db j r

/-- The two jobs may be on the same resource at the same time: `k` is besteffort, or a placeholder in which `j` is allowed, or both are of the
same type of timesharing and the user and the name are the same when it says so. -/
def Share (j k : Job) : Prop :=
  ⟨"besteffort", none⟩ ∈ k.types ∨
  (∃ v, ⟨"allowed", v⟩ ∈ j.types ∧ ⟨"placeholder", some (v.getD "True")⟩ ∈ k.types) ∨
  (⟨"timesharing", some "*,*"⟩ ∈ j.types ∧ ⟨"timesharing", some "*,*"⟩ ∈ k.types) ∨
  (∃ a ∈ ["user,name", "name,user"], ∃ b ∈ ["user,name", "name,user"], ⟨"timesharing", some a⟩ ∈ j.types ∧ ⟨"timesharing", some b⟩ ∈ k.types ∧
    j.user = k.user ∧ j.name = k.name)

/-- The server returns the distinct dates. -/
def Distinct (env : Env) : Prop := ∀ l x, x ∈ env.sql l ↔ x ∈ l

/-! ## The jobs considered -/

theorem mem_select {db : Db} {r : Row} : r ∈ select db ↔ r.job ∈ db.jobs ∧ r.job.state = "Running" ∧ (r.job.id, r.req) ∈ db.wtc ∧ r.req.pending ≠ 0 ∧
    (∃ m ∈ db.molds, m.id = r.job.assigned ∧ m.walltime = r.walltime) ∧ (r.job.assigned, r.rid) ∈ db.assigned := by
  unfold select
  simp only [List.mem_flatMap, List.mem_filter, List.mem_map, beq_iff_eq, Bool.and_eq_true, bne_iff_ne, ne_eq]
  constructor
  · rintro ⟨j, ⟨hj, hr⟩, w, ⟨hw, hw1, hw2⟩, m, ⟨hm, hm1⟩, a, ⟨ha, ha1⟩, rfl⟩
    refine ⟨hj, hr, ?_, hw2, ⟨m, hm, hm1, rfl⟩, ?_⟩
    · show (j.id, w.2) ∈ db.wtc
      rw [← hw1]; exact hw
    · show (j.assigned, a.2) ∈ db.assigned
      rw [← ha1]; exact ha
  · rintro ⟨h1, h2, h3, h4, ⟨m, hm, hm1, hm2⟩, h6⟩
    exact ⟨r.job, ⟨h1, h2⟩, (r.job.id, r.req), ⟨h3, rfl, h4⟩, m, ⟨hm, hm1⟩, (r.job.assigned, r.rid), ⟨h6, rfl⟩, by rw [hm2]⟩

/-- The data of a row but the resource. -/
def Row.data (r : Row) : Job × Int × Wtc := (r.job, r.walltime, r.req)
def Entry.data (e : Entry) : Job × Int × Wtc := (e.job, e.walltime, e.req)

theorem addRow_ids (r : Row) : ∀ es : List Entry, (addRow es r).map (fun e => e.job.id) =
    if r.job.id ∈ es.map (fun e => e.job.id) then es.map (fun e => e.job.id) else es.map (fun e => e.job.id) ++ [r.job.id]
  | [] => by simp [addRow]
  | e :: es => by
    unfold addRow
    by_cases h : e.job.id = r.job.id
    · rw [if_pos h, if_pos (by simp [h])]; simp
    · rw [if_neg h]
      simp only [List.map_cons, addRow_ids r es, List.mem_cons]
      by_cases h2 : r.job.id ∈ es.map (fun e => e.job.id)
      · rw [if_pos h2, if_pos (Or.inr h2)]
      · rw [if_neg h2, if_neg (by rintro (h3 | h3); exact h h3.symm; exact h2 h3)]; rfl

theorem addRow_mem {r : Row} : ∀ {es : List Entry} {e : Entry}, e ∈ addRow es r →
    (e ∈ es ∧ e.job.id ≠ r.job.id) ∨ (∃ e0 ∈ es, e0.job.id = r.job.id ∧ e = { e0 with rids := e0.rids ++ [r.rid] }) ∨ (e ∈ es ∧ ∃ e0 ∈ es, e0.job.id = r.job.id) ∨
      (e = ⟨r.job, r.walltime, r.req, [r.rid]⟩ ∧ ∀ e0 ∈ es, e0.job.id ≠ r.job.id)
  | [], e, h => by
    simp only [addRow, List.mem_singleton] at h
    exact Or.inr (Or.inr (Or.inr ⟨h, by simp⟩))
  | e0 :: es, e, h => by
    unfold addRow at h
    by_cases h1 : e0.job.id = r.job.id
    · rw [if_pos h1] at h
      rcases List.mem_cons.1 h with rfl | h
      · exact Or.inr (Or.inl ⟨e0, by simp, h1, rfl⟩)
      · exact Or.inr (Or.inr (Or.inl ⟨by simp [h], e0, by simp, h1⟩))
    · rw [if_neg h1] at h
      rcases List.mem_cons.1 h with rfl | h
      · exact Or.inl ⟨by simp, h1⟩
      · rcases addRow_mem h with ⟨a, b⟩ | ⟨x, hx, a, b⟩ | ⟨a, x, hx, b⟩ | ⟨a, b⟩
        · exact Or.inl ⟨by simp [a], b⟩
        · exact Or.inr (Or.inl ⟨x, by simp [hx], a, b⟩)
        · exact Or.inr (Or.inr (Or.inl ⟨by simp [a], x, by simp [hx], b⟩))
        · refine Or.inr (Or.inr (Or.inr ⟨a, fun y hy => ?_⟩))
          rcases List.mem_cons.1 hy with rfl | hy
          · exact h1
          · exact b y hy

/-- What the dictionary is after some rows, when rows of the same job have the same data. -/
structure Grouped (rows : List Row) (es : List Entry) : Prop where
  ids : (es.map (fun e => e.job.id)).Nodup
  sound : ∀ e ∈ es, ∃ r ∈ rows, r.data = e.data
  rids : ∀ e ∈ es, ∀ x, x ∈ e.rids ↔ ∃ r ∈ rows, r.job.id = e.job.id ∧ r.rid = x
  complete : ∀ r ∈ rows, ∃ e ∈ es, e.job.id = r.job.id

theorem Grouped.snoc {rows : List Row} {es : List Entry} (h : Grouped rows es) (r : Row) : Grouped (rows ++ [r]) (addRow es r) := by
  have hids := addRow_ids r es
  have hnd : ((addRow es r).map (fun e => e.job.id)).Nodup := by
    rw [hids]
    split
    · exact h.ids
    · rename_i hn
      rw [List.nodup_append]
      exact ⟨h.ids, by simp, fun a ha b hb => by simp at hb; subst hb; intro heq; exact hn (heq ▸ ha)⟩
  have hinj : ∀ e1 ∈ addRow es r, ∀ e2 ∈ addRow es r, e1.job.id = e2.job.id → e1 = e2 := fun e1 h1 e2 h2 heq =>
    List.inj_on_of_nodup_map hnd h1 h2 heq
  refine ⟨hnd, ?_, ?_, ?_⟩
  · intro e he
    rcases addRow_mem he with ⟨a, _⟩ | ⟨e0, h0, _, rfl⟩ | ⟨a, _⟩ | ⟨rfl, _⟩
    · obtain ⟨x, hx, hd⟩ := h.sound e a; exact ⟨x, by simp [hx], hd⟩
    · obtain ⟨x, hx, hd⟩ := h.sound e0 h0; exact ⟨x, by simp [hx], hd⟩
    · obtain ⟨x, hx, hd⟩ := h.sound e a; exact ⟨x, by simp [hx], hd⟩
    · exact ⟨r, by simp, rfl⟩
  · have old : ∀ e ∈ es, e.job.id ≠ r.job.id → ∀ x, x ∈ e.rids ↔ ∃ r' ∈ rows ++ [r], r'.job.id = e.job.id ∧ r'.rid = x := by
      intro e he hne x
      rw [h.rids e he x]
      constructor
      · rintro ⟨y, hy, a, b⟩; exact ⟨y, by simp [hy], a, b⟩
      · rintro ⟨y, hy, a, b⟩
        rcases List.mem_append.1 hy with hy | hy
        · exact ⟨y, hy, a, b⟩
        · simp at hy; subst hy; exact absurd a.symm hne
    intro e he
    rcases addRow_mem he with ⟨a, hne⟩ | ⟨e0, h0, hid, rfl⟩ | ⟨a, e0, h0, hid⟩ | ⟨rfl, hnone⟩
    · exact old e a hne
    · intro x
      show x ∈ e0.rids ++ [r.rid] ↔ ∃ r' ∈ rows ++ [r], r'.job.id = e0.job.id ∧ r'.rid = x
      rw [List.mem_append, h.rids e0 h0 x, List.mem_singleton]
      constructor
      · rintro (⟨y, hy, a, b⟩ | rfl)
        · exact ⟨y, by simp [hy], a, b⟩
        · exact ⟨r, by simp, hid.symm, rfl⟩
      · rintro ⟨y, hy, a, b⟩
        rcases List.mem_append.1 hy with hy | hy
        · exact Or.inl ⟨y, hy, a, b⟩
        · simp at hy; subst hy; exact Or.inr b.symm
    · by_cases hne : e.job.id = r.job.id
      · -- then `e` and the extended `e0` have the same key
        have hee : e = e0 := List.inj_on_of_nodup_map h.ids a h0 (hne.trans hid.symm)
        have hmem : ({ e0 with rids := e0.rids ++ [r.rid] } : Entry) ∈ addRow es r := by
          clear he old hinj hnd hids
          have : ∀ l : List Entry, (l.map (fun e => e.job.id)).Nodup → e0 ∈ l → ({ e0 with rids := e0.rids ++ [r.rid] } : Entry) ∈ addRow l r := by
            intro l
            induction l with
            | nil => intro _ hm; simp at hm
            | cons b l ih =>
              intro hn hm
              unfold addRow
              rcases List.mem_cons.1 hm with rfl | hm
              · rw [if_pos hid]; simp
              · by_cases hb : b.job.id = r.job.id
                · exfalso
                  simp only [List.map_cons, List.nodup_cons] at hn
                  exact hn.1 (List.mem_map.2 ⟨e0, hm, hid.trans hb.symm⟩)
                · rw [if_neg hb]
                  simp only [List.map_cons, List.nodup_cons] at hn
                  exact List.mem_cons_of_mem _ (ih hn.2 hm)
          exact this es h.ids h0
        have := hinj e he _ hmem (by rw [hee])
        rw [hee] at this
        have hl := congrArg (fun e : Entry => e.rids.length) this
        simp at hl
      · exact old e a hne
    · intro x
      show x ∈ [r.rid] ↔ ∃ r' ∈ rows ++ [r], r'.job.id = r.job.id ∧ r'.rid = x
      rw [List.mem_singleton]
      constructor
      · rintro rfl; exact ⟨r, by simp, rfl, rfl⟩
      · rintro ⟨y, hy, a, b⟩
        rcases List.mem_append.1 hy with hy | hy
        · obtain ⟨e0, h0, hid⟩ := h.complete y hy
          exact absurd (hid.trans a) (hnone e0 h0)
        · simp at hy; subst hy; exact b.symm
  · intro y hy
    have : y.job.id ∈ (addRow es r).map (fun e => e.job.id) := by
      rw [hids]
      rcases List.mem_append.1 hy with hy | hy
      · obtain ⟨e, he, hid⟩ := h.complete y hy
        have hm : y.job.id ∈ es.map (fun e => e.job.id) := List.mem_map.2 ⟨e, he, hid⟩
        split
        · exact hm
        · exact List.mem_append_left _ hm
      · simp at hy; subst hy
        split
        · assumption
        · simp
    obtain ⟨e, he, hid⟩ := List.mem_map.1 this
    exact ⟨e, he, hid⟩

theorem group_grouped (rows : List Row) : Grouped rows (group rows) := by
  unfold group
  have : ∀ (l done : List Row) (es : List Entry), Grouped done es → Grouped (done ++ l) (l.foldl addRow es) := by
    intro l
    induction l with
    | nil => intro done es h; simpa using h
    | cons r l ih =>
      intro done es h
      have := ih (done ++ [r]) (addRow es r) (h.snoc r)
      simpa using this
  simpa using this rows [] [] ⟨by simp, by simp, by simp, by simp⟩

/-- **C121 (the jobs considered).** Whatever the order in which the server returns the rows, the jobs considered are, each once, the running jobs
with a request which is not null and at least one resource, with their walltime, their request and exactly their resources. -/
theorem considered_exact (db : Db) (rows : List Row) (hr : rows.Perm (select db)) (k : Keys db) :
    ((group rows).map (fun e => e.job.id)).Nodup ∧
    (∀ j w t, (∃ m, Asks db j m w ∧ m.walltime = t) ↔ ∃ e ∈ group rows, e.job = j ∧ e.req = w ∧ e.walltime = t) ∧
    ∀ e ∈ group rows, ∀ r, r ∈ e.rids ↔ Holds db e.job r := by
  have g := group_grouped rows
  have hin : ∀ r, r ∈ rows ↔ r ∈ select db := fun r => hr.mem_iff
  have huniq : ∀ r1 ∈ rows, ∀ r2 ∈ rows, r1.job.id = r2.job.id → r1.data = r2.data := by
    intro r1 h1 r2 h2 hid
    obtain ⟨a1, _, a3, _, ⟨m1, hm1, hi1, hw1⟩, _⟩ := mem_select.1 ((hin _).1 h1)
    obtain ⟨b1, _, b3, _, ⟨m2, hm2, hi2, hw2⟩, _⟩ := mem_select.1 ((hin _).1 h2)
    have hj : r1.job = r2.job := List.inj_on_of_nodup_map k.jobs a1 b1 hid
    have hm : m1 = m2 := List.inj_on_of_nodup_map k.molds hm1 hm2 (by rw [hi1, hi2, hj])
    have hw := List.inj_on_of_nodup_map k.wtc a3 b3 hid
    unfold Row.data
    rw [hj, ← hw1, ← hw2, hm]
    have : r1.req = r2.req := congrArg Prod.snd hw
    rw [this]
  refine ⟨g.ids, ?_, ?_⟩
  · intro j w t
    constructor
    · rintro ⟨m, ha, rfl⟩
      obtain ⟨r, hr'⟩ := ha.holds
      have hm : (⟨j, m.walltime, w, r⟩ : Row) ∈ rows := (hin _).2 (mem_select.2 ⟨ha.job, ha.running, ha.req, ha.pending, ⟨m, ha.mold, ha.assigned, rfl⟩, hr'⟩)
      obtain ⟨e, he, hid⟩ := g.complete _ hm
      obtain ⟨r', hr2, hd⟩ := g.sound e he
      have hjj : r'.job = e.job := congrArg Prod.fst hd
      have := huniq r' hr2 _ hm (by rw [hjj]; exact hid)
      rw [hd] at this
      refine ⟨e, he, congrArg Prod.fst this, congrArg (fun x => x.2.2) this, congrArg (fun x => x.2.1) this⟩
    · rintro ⟨e, he, rfl, rfl, rfl⟩
      obtain ⟨r, hr2, hd⟩ := g.sound e he
      obtain ⟨a1, a2, a3, a4, ⟨m1, hm1, hi1, hw1⟩, a6⟩ := mem_select.1 ((hin _).1 hr2)
      have h1 : r.job = e.job := congrArg Prod.fst hd
      have h2 : r.walltime = e.walltime := congrArg (fun x => x.2.1) hd
      have h3 : r.req = e.req := congrArg (fun x => x.2.2) hd
      rw [h1] at a1 a2 a3 hi1 a6
      rw [h3] at a3 a4
      exact ⟨m1, ⟨a1, a2, hm1, hi1, a3, a4, r.rid, a6⟩, by rw [hw1, h2]⟩
  · intro e he r
    obtain ⟨r0, hr0, hd⟩ := g.sound e he
    have h1 : r0.job = e.job := congrArg Prod.fst hd
    rw [g.rids e he r]
    constructor
    · rintro ⟨y, hy, hid, rfl⟩
      have hyy := huniq y hy r0 hr0 (by rw [h1]; exact hid)
      have hjy : y.job = e.job := (congrArg Prod.fst hyy).trans h1
      have := (mem_select.1 ((hin _).1 hy)).2.2.2.2.2
      rw [hjy] at this
      exact this
    · intro hh
      obtain ⟨a1, a2, a3, a4, a5, _⟩ := mem_select.1 ((hin _).1 hr0)
      refine ⟨⟨r0.job, r0.walltime, r0.req, r⟩, (hin _).2 (mem_select.2 ⟨a1, a2, a3, a4, a5, ?_⟩), by rw [h1], rfl⟩
      show (r0.job.assigned, r) ∈ db.assigned
      rw [h1]; exact hh

/-! ## One job -/

theorem typeOf_mem {j : Job} {n : String} {v : Option String} (h : typeOf j n = some v) : ⟨n, v⟩ ∈ j.types := by
  unfold typeOf at h
  obtain ⟨t, ht, hv⟩ := Option.map_eq_some_iff.1 h
  have hm := List.mem_of_find?_eq_some ht
  have hn := List.find?_some ht
  simp only [beq_iff_eq] at hn
  have : t = ⟨n, v⟩ := by cases t; simp_all
  rw [← this]
  exact List.mem_reverse.1 hm

theorem skipped_share {e : Entry} {ex : List Excl} {k : Job} (hex : exclude e = some ex) (hk : k.name ≠ some "$job_name") (hs : skipped ex k = true) :
    Share e.job k := by
  unfold skipped at hs
  rw [List.any_eq_true] at hs
  obtain ⟨t, ht, hc⟩ := hs
  rw [Bool.or_eq_true] at hc
  rcases hc with hc | hc
  · left; rw [beq_iff_eq] at hc; rw [← hc]; exact ht
  · rw [List.any_eq_true] at hc
    obtain ⟨x, hx, hc⟩ := hc
    simp only [Bool.and_eq_true] at hc
    obtain ⟨⟨h1, h2⟩, h3⟩ := hc
    unfold exclude at hex
    cases ha : typeOf e.job "allowed" with
    | some v =>
      rw [ha] at hex
      have hmem := typeOf_mem ha
      right; left
      refine ⟨v, hmem, ?_⟩
      cases v with
      | none =>
        simp only [Option.some.injEq] at hex
        subst hex
        simp only [List.mem_singleton] at hx
        subst hx
        simp at h1
        subst h1
        exact ht
      | some v =>
        simp only [Option.some.injEq] at hex
        subst hex
        simp only [List.mem_singleton] at hx
        subst hx
        simp at h1
        subst h1
        exact ht
    | none =>
      rw [ha] at hex
      cases hts : typeOf e.job "timesharing" with
      | none => rw [hts] at hex; simp at hex; subst hex; simp at hx
      | some v =>
        rw [hts] at hex
        have hmem := typeOf_mem hts
        cases v with
        | none => simp at hex; subst hex; simp at hx
        | some v =>
          dsimp only at hex
          split at hex
          · simp at hex
          split at hex
          · simp at hex
          split at hex
          · simp only [Option.some.injEq] at hex
            subst hex
            simp only [List.mem_singleton] at hx
            subst hx
            simp at h2
            exact absurd h2 hk
          split at hex
          · rename_i hv
            subst hv
            simp only [Option.some.injEq] at hex
            subst hex
            simp only [List.mem_singleton] at hx
            subst hx
            simp at h1
            subst h1
            right; right; left
            exact ⟨hmem, ht⟩
          · simp at hex; subst hex; simp at hx

theorem mem_starts {db : Db} {from_ to_ : Int} {rids : List Nat} {delay : Bool} {ex : List Excl} {s : Int} :
    s ∈ starts db from_ to_ rids delay ex ↔ ∃ k ∈ db.jobs, (delay = true → k.reservation ≠ "None") ∧ skipped ex k = false ∧
      (∃ m ∈ db.molds, m.job = k.id ∧ (m.id, s) ∈ db.preds ∧ ∃ r, (m.id, r) ∈ db.gres ∧ r ∈ rids) ∧ from_ < s ∧ s ≤ to_ := by
  unfold starts
  simp only [List.mem_flatMap, List.mem_filter, List.mem_map, beq_iff_eq, Bool.and_eq_true, decide_eq_true_eq, List.contains_iff_mem]
  constructor
  · rintro ⟨k, ⟨hk, hk1, hk2⟩, m, ⟨hm, hm1⟩, p, ⟨hp, ⟨hp1, hp2⟩, hp3⟩, g, ⟨hg, hg1, hg2⟩, rfl⟩
    refine ⟨k, hk, ?_, by simpa using hk2, ⟨m, hm, hm1, ?_, g.2, ?_, hg2⟩, hp2, hp3⟩
    · intro hd; subst hd; simpa using hk1
    · rw [← hp1]; exact hp
    · rw [← hp1, ← hg1]; exact hg
  · rintro ⟨k, hk, h1, h2, ⟨m, hm, hm1, hp, r, hg, hr⟩, h3, h4⟩
    refine ⟨k, ⟨hk, ?_, by simpa using h2⟩, m, ⟨hm, hm1⟩, (m.id, s), ⟨hp, ⟨rfl, h3⟩, h4⟩, (m.id, r), ⟨hg, rfl, hr⟩, rfl⟩
    cases delay
    · rfl
    · simpa using h1 rfl

theorem endLoop_cases {sec : Int} : ∀ (ss : List Int) (first : Int), endLoop sec ss first = first ∨ ∃ s ∈ ss, endLoop sec ss first = s - sec - 1
  | [], first => Or.inl rfl
  | s :: ss, first => by
    unfold endLoop
    rcases endLoop_cases (sec := sec) ss (if first = 0 ∨ first > s - sec then s - sec - 1 else first) with h | ⟨x, hx, h⟩
    · rw [h]
      split
      · exact Or.inr ⟨s, by simp, rfl⟩
      · exact Or.inl rfl
    · exact Or.inr ⟨x, by simp [hx], h⟩

/-- The container of an inner job ends at `c`, for a walltime of its moldable found in one of the tables. -/
def ContainerEnds (env : Env) (jobs : List Job) (molds : List Mold) (j : Job) (c : Int) : Prop :=
  ∃ v, typeOf j "inner" = some v ∧ ∃ cid, innerOf env v = some cid ∧ ∃ k ∈ jobs, k.id = cid ∧ k.state = "Running" ∧ ∃ m ∈ molds, m.id = k.assigned ∧
    c = k.start + m.walltime

theorem upTo_cases {env : Env} {db : Db} {e : Entry} {t u : Int} (h : upTo env db e t = some u) :
    (typeOf e.job "inner" = none ∧ u = t) ∨ ∃ c, ContainerEnds env db.jobs db.molds e.job c ∧ u = (if c < t then c else t) := by
  unfold upTo at h
  cases hi : typeOf e.job "inner" with
  | none => rw [hi] at h; simp at h; exact Or.inl ⟨rfl, h.symm⟩
  | some v =>
    rw [hi] at h
    right
    obtain ⟨c, hc, hu⟩ := Option.map_eq_some_iff.1 h
    refine ⟨c, ⟨v, hi, ?_⟩, hu.symm⟩
    unfold containerEnd at hc
    cases hv : innerOf env v with
    | none => rw [hv] at hc; simp at hc
    | some cid =>
      rw [hv] at hc
      dsimp only at hc
      cases hf : db.jobs.find? (fun j => j.id == cid && j.state == "Running") with
      | none => rw [hf] at hc; simp at hc
      | some k =>
        rw [hf] at hc
        dsimp only at hc
        obtain ⟨m, hm, hw⟩ := Option.map_eq_some_iff.1 hc
        have h1 := List.mem_of_find?_eq_some hf
        have h2 := List.find?_some hf
        have h3 := List.mem_of_find?_eq_some hm
        have h4 := List.find?_some hm
        simp only [Bool.and_eq_true, beq_iff_eq] at h2 h4
        exact ⟨cid, rfl, k, h1, h2.1, h2.2, m, h3, h4, hw.symm⟩

theorem suspended_nonneg (env : Env) (db : Db) (jid : Nat) : 0 ≤ suspended env db jid := by
  unfold suspended
  generalize db.log.filter _ = l
  induction l with
  | nil => simp
  | cons r l ih =>
    simp only [List.map_cons, List.sum_cons]
    have : 0 ≤ Jobs.resTime env.now r := by unfold Jobs.resTime; dsimp only; split <;> omega
    omega

/-- A job blocks the change of `e`: it is predicted, at the date `s`, after the end of the job of `e` on one of its resources, is not one with
which the resource is shared, and is an advance reservation if the next jobs may be delayed. -/
def Blocks (env : Env) (db : Db) (e : Entry) (s : Int) : Prop :=
  ∃ k ∈ db.jobs, (e.req.delay = true → k.reservation ≠ "None") ∧ ⟨"besteffort", none⟩ ∉ k.types ∧
    (∃ m ∈ db.molds, m.job = k.id ∧ (m.id, s) ∈ db.preds ∧ ∃ r, (m.id, r) ∈ db.gres ∧ r ∈ e.rids) ∧ endOf env db e < s

theorem starts_blocks {env : Env} {db : Db} {e : Entry} {ex : List Excl} {to_ s : Int}
    (h : s ∈ starts db (endOf env db e) to_ e.rids e.req.delay ex) : Blocks env db e s := by
  obtain ⟨k, hk, h1, h2, h3, h4, _⟩ := mem_starts.1 h
  refine ⟨k, hk, h1, ?_, h3, h4⟩
  intro hb
  have : skipped ex k = true := List.any_eq_true.2 ⟨_, hb, by simp⟩
  rw [h2] at this
  simp at this

theorem fitOf_spec (env : Env) {e : Entry} (h : 0 < e.req.pending) : 0 < fitOf env e ∧ fitOf env e ≤ e.req.pending ∧
    (fitOf env e = e.req.pending ∨ (e.req.force = false ∧ fitOf env e = env.increment e.job.queue (e.walltime - e.req.granted))) := by
  unfold fitOf
  dsimp only
  split
  · rename_i hc; exact ⟨hc.2.1, by omega, Or.inr ⟨hc.1, rfl⟩⟩
  · exact ⟨h, by omega, Or.inl rfl⟩

/-- The decision for an increase. -/
theorem decide_up {env : Env} {db : Db} {e : Entry} {f : Int} (hd : Distinct env) (hpend : 0 < e.req.pending) (h0 : 0 ≤ env.sec)
    (hend : env.sec < endOf env db e) (hc : ∀ c, ContainerEnds env db.jobs db.molds e.job c → c ≠ 0)
    (h : decideFit env db e = .give f) :
    0 < f ∧ f ≤ e.req.pending ∧ (e.req.force = false → 0 < env.increment e.job.queue (e.walltime - e.req.granted) →
      f ≤ env.increment e.job.queue (e.walltime - e.req.granted)) ∧
    (typeOf e.job "inner" ≠ none → ∃ c, ContainerEnds env db.jobs db.molds e.job c ∧ endOf env db e + f ≤ c) ∧
    (∀ k s, k ∈ db.jobs → (∃ m ∈ db.molds, m.job = k.id ∧ (m.id, s) ∈ db.preds ∧ ∃ r, (m.id, r) ∈ db.gres ∧ r ∈ e.rids) →
      (e.req.delay = true → k.reservation ≠ "None") → ¬ Share e.job k → k.name ≠ some "$job_name" → endOf env db e < s →
      endOf env db e + f + env.sec ≤ s) ∧
    (f = e.req.pending ∨ (e.req.force = false ∧ f = env.increment e.job.queue (e.walltime - e.req.granted)) ∨
      (∃ c, ContainerEnds env db.jobs db.molds e.job c ∧ endOf env db e + f = c) ∨
      ∃ s, Blocks env db e s ∧ endOf env db e + f + env.sec + 1 = s) := by
  unfold decideFit at h
  rw [if_pos hpend] at h
  split at h
  · simp at h
  split at h
  · simp at h
  rename_i to_ hto
  split at h
  · simp at h
  rename_i ex hex
  dsimp only at h
  generalize hE : endOf env db e = E at *
  generalize hss : env.sql (starts db E (to_ + env.sec) e.rids e.req.delay ex) = ss at h
  split at h
  · simp at h
  rename_i hpos
  simp only [Fit.give.injEq] at h
  obtain ⟨g1, g2, g3⟩ := fitOf_spec env hpend
  have hto1 : to_ ≤ E + fitOf env e ∧ to_ ≠ 0 ∧ (typeOf e.job "inner" ≠ none → ∃ c, ContainerEnds env db.jobs db.molds e.job c ∧ to_ ≤ c) ∧
      (to_ = E + fitOf env e ∨ ∃ c, ContainerEnds env db.jobs db.molds e.job c ∧ to_ = c) := by
    rcases upTo_cases hto with ⟨hi, rfl⟩ | ⟨c, hce, rfl⟩
    · exact ⟨by omega, by omega, fun hn => absurd hi hn, Or.inl rfl⟩
    · have := hc c hce
      split
      · exact ⟨by omega, this, fun _ => ⟨c, hce, by omega⟩, Or.inr ⟨c, hce, rfl⟩⟩
      · exact ⟨by omega, by omega, fun _ => ⟨c, hce, by omega⟩, Or.inl rfl⟩
  have hmem : ∀ s, s ∈ ss ↔ s ∈ starts db E (to_ + env.sec) e.rids e.req.delay ex := fun s => by rw [← hss]; exact hd _ s
  have hs : ∀ s ∈ ss, E < s := fun s hs => by
    obtain ⟨_, _, _, _, _, h5, _⟩ := mem_starts.1 ((hmem s).1 hs)
    exact h5
  by_cases hbig : ∀ s ∈ ss, 0 < s - env.sec - 1
  · obtain ⟨l1, l2⟩ := endLoop_le ss to_ hto1.2.1 hbig
    refine ⟨by omega, by omega, fun hf hi => ?_, fun hn => ?_, ?_, ?_⟩
    · have : fitOf env e ≤ env.increment e.job.queue (e.walltime - e.req.granted) := by
        unfold fitOf; dsimp only
        split
        · omega
        · rename_i hcn
          by_cases hlt : env.increment e.job.queue (e.walltime - e.req.granted) < e.req.pending
          · exact absurd ⟨hf, hi, hlt⟩ hcn
          · omega
      omega
    · obtain ⟨c, hce, hle⟩ := hto1.2.2.1 hn
      exact ⟨c, hce, by omega⟩
    · intro k s hk hp hdel hns hname hlt
      by_cases hle : s ≤ to_ + env.sec
      · have : s ∈ ss := (hmem s).2 (mem_starts.2 ⟨k, hk, hdel, ?_, hp, hlt, hle⟩)
        · have := l2 s this; omega
        · cases hsk : skipped ex k with
          | false => rfl
          | true => exact absurd (skipped_share hex hname hsk) hns
      · omega
    · rcases endLoop_cases (sec := env.sec) ss to_ with hl | ⟨s, hsm, hl⟩
      · rw [hl] at h
        rcases hto1.2.2.2 with h1 | ⟨c, hce, h1⟩
        · rcases g3 with g | ⟨g, g'⟩
          · left; omega
          · right; left; exact ⟨g, by omega⟩
        · right; right; left; exact ⟨c, hce, by omega⟩
      · right; right; right
        refine ⟨s, ?_, by omega⟩
        subst hE
        exact starts_blocks ((hmem s).1 hsm)
  · exfalso
    obtain ⟨s, hs1⟩ := Classical.not_forall.1 hbig
    obtain ⟨hs1, hs2⟩ := Classical.not_imp.1 hs1
    have := hs s hs1
    omega

/-- Why a change waits. -/
theorem decide_wait {env : Env} {db : Db} {e : Entry} (hd : Distinct env) (h : decideFit env db e = .wait) :
    0 < e.req.pending ∧ ((e.req.force = false ∧ 0 < env.applyTime e.job.queue (e.walltime - e.req.granted) ∧
        env.now < endOf env db e - env.applyTime e.job.queue (e.walltime - e.req.granted)) ∨
      (∃ c, ContainerEnds env db.jobs db.molds e.job c ∧ c ≤ endOf env db e) ∨ ∃ s, Blocks env db e s ∧ s ≤ endOf env db e + env.sec + 1) := by
  unfold decideFit at h
  split at h
  · rename_i hpend
    refine ⟨hpend, ?_⟩
    split at h
    · rename_i ht
      left
      unfold tooEarly at ht
      simp only [Bool.and_eq_true, decide_eq_true_eq] at ht
      refine ⟨by simpa using ht.1.1, ht.1.2, by omega⟩
    · split at h
      · simp at h
      rename_i to_ hto
      split at h
      · simp at h
      rename_i ex hex
      dsimp only at h
      split at h
      · rename_i hle
        right
        obtain ⟨g1, _, _⟩ := fitOf_spec env hpend
        rcases endLoop_cases (sec := env.sec) (env.sql (starts db (endOf env db e) (to_ + env.sec) e.rids e.req.delay ex)) to_ with hl | ⟨s, hsm, hl⟩
        · rw [hl] at hle
          left
          rcases upTo_cases hto with ⟨_, rfl⟩ | ⟨c, hce, rfl⟩
          · omega
          · refine ⟨c, hce, ?_⟩
            split at hle <;> omega
        · right
          exact ⟨s, starts_blocks ((hd _ s).1 hsm), by omega⟩
      · simp at h
  · split at h <;> simp at h

/-- The decision for a reduction. -/
theorem decide_down {env : Env} {db : Db} {e : Entry} (hpend : e.req.pending < 0) : ∃ f, decideFit env db e = .give f ∧
    (env.now ≤ endOf env db e → e.req.pending ≤ f ∧ f ≤ 0 ∧ env.now ≤ endOf env db e + f ∧ (f = e.req.pending ∨ endOf env db e + f = env.now)) := by
  unfold decideFit
  rw [if_neg (by omega), if_pos hpend]
  refine ⟨_, rfl, fun hn => ?_⟩
  split <;> omega

end Oar.WalltimeRound
