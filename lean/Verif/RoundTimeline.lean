import Verif.SlotProps
import Verif.SchedProps

/-!
# Insertion of many jobs in a timeline, and the outcome of a pass

Lemmas for the composition of a whole round (C95).
-/

namespace Oar.Kao
open Spec Oar.Hierarchy

/-! ## The identifiers of the slots are kept -/

/-- Every slot identifier is still there. -/
def IdsKept (a b : SlotSet) : Prop := ∀ s ∈ a.slots, ∃ s' ∈ b.slots, s'.id = s.id

theorem IdsKept.refl (a : SlotSet) : IdsKept a a := fun s hs => ⟨s, hs, rfl⟩

theorem IdsKept.trans {a b c : SlotSet} (h1 : IdsKept a b) (h2 : IdsKept b c) : IdsKept a c := by
  intro s hs
  obtain ⟨s1, m1, e1⟩ := h1 s hs
  obtain ⟨s2, m2, e2⟩ := h2 s1 m1
  exact ⟨s2, m2, e2.trans e1⟩

theorem modify_ids (ss : SlotSet) (i : Nat) (f : Slot → Slot) (hf : ∀ s, (f s).id = s.id) : IdsKept ss (ss.modify i f) := by
  intro s hs
  refine ⟨if s.id = i then f s else s, List.mem_map.2 ⟨s, hs, rfl⟩, ?_⟩
  split
  · exact hf s
  · rfl

theorem fold_ids {f : Slot → Slot} (hf : ∀ s, (f s).id = s.id) : ∀ (M : List Slot) (ss : SlotSet),
    IdsKept ss (M.foldl (fun s x => s.modify x.id f) ss)
  | [], ss => IdsKept.refl ss
  | y :: M, ss => (modify_ids ss y.id f hf).trans (fold_ids hf M _)

theorem append_ids (ss : SlotSet) (n : Slot) (k : Nat) : IdsKept ss { ss with slots := ss.slots ++ [n], lastId := k } :=
  fun s hs => ⟨s, List.mem_append_left _ hs, rfl⟩

theorem splitBefore_ids {ctx : Ctx} {ss : SlotSet} {sid : Nat} {date : Int} {x : SlotSet × Nat × Nat}
    (h : ss.splitBefore ctx sid date = some x) : IdsKept ss x.1 := by
  unfold SlotSet.splitBefore at h
  split at h
  · simp at h
  · split at h
    · simp at h
    · split at h
      · simp at h
      · split at h
        · simp only [Option.some.injEq] at h
          subst h
          exact IdsKept.refl _
        · simp only [Option.some.injEq] at h
          subst h
          refine IdsKept.trans ?_ (append_ids _ _ _)
          refine IdsKept.trans ?_ (modify_ids _ _ _ (fun _ => rfl))
          split
          · exact modify_ids _ _ _ (fun _ => rfl)
          · exact IdsKept.refl _

theorem splitAfter_ids {ctx : Ctx} {ss : SlotSet} {sid : Nat} {date : Int} {x : SlotSet × Nat × Nat}
    (h : ss.splitAfter ctx sid date = some x) : IdsKept ss x.1 := by
  unfold SlotSet.splitAfter at h
  split at h
  · simp at h
  · split at h
    · simp at h
    · split at h
      · simp at h
      · split at h
        · simp only [Option.some.injEq] at h
          subst h
          exact IdsKept.refl _
        · simp only [Option.some.injEq] at h
          subst h
          refine IdsKept.trans ?_ (append_ids _ _ _)
          refine IdsKept.trans ?_ (modify_ids _ _ _ (fun _ => rfl))
          split
          · exact modify_ids _ _ _ (fun _ => rfl)
          · exact IdsKept.refl _

theorem splitSlots_ids {ctx : Ctx} {ss ss' : SlotSet} {l r : Nat} {job : Job} {w : Int} {R : ProcSet}
    {sub : Bool} (h : ss.splitSlots ctx l r job w R sub = some ss') : IdsKept ss ss' := by
  unfold SlotSet.splitSlots at h
  split at h
  · simp at h
  · split at h
    · simp at h
    · rename_i ss1 left' h1
      have g1 : IdsKept ss ss1 := by
        split at h1
        · cases e : ss.splitBefore ctx l job.startTime with
          | none => rw [e] at h1; simp at h1
          | some y =>
            rw [e] at h1
            simp only [Option.map_some, Option.some.injEq, Prod.mk.injEq] at h1
            rw [← h1.1]; exact splitBefore_ids e
        · simp only [Option.some.injEq, Prod.mk.injEq] at h1
          rw [← h1.1]; exact IdsKept.refl _
      split at h
      · simp at h
      · split at h
        · simp at h
        · rename_i ss2 right' h2
          have g2 : IdsKept ss1 ss2 := by
            split at h2
            · cases e : ss1.splitAfter ctx r (job.startTime + w) with
              | none => rw [e] at h2; simp at h2
              | some y =>
                rw [e] at h2
                simp only [Option.map_some, Option.some.injEq, Prod.mk.injEq] at h2
                rw [← h2.1]; exact splitAfter_ids e
            · simp only [Option.some.injEq, Prod.mk.injEq] at h2
              rw [← h2.1]; exact IdsKept.refl _
          simp only [Option.some.injEq] at h
          subst h
          exact (g1.trans g2).trans (fold_ids (fun s => (keeps_effect ctx job w R sub s).1) _ _)

theorem splitJobStep_ids {ctx : Ctx} {sub : Bool} {ss ss' : SlotSet} {f f' : Nat} {job : Job}
    (h : ss.splitJobStep ctx sub f job = some (ss', f')) : IdsKept ss ss' := by
  unfold SlotSet.splitJobStep at h
  split at h
  · split at h
    · split at h
      · simp at h
      · split at h
        · simp at h
        · rename_i hsp
          simp only [Option.some.injEq, Prod.mk.injEq] at h
          rw [← h.1]; exact splitSlots_ids hsp
    · simp only [Option.some.injEq, Prod.mk.injEq] at h
      rw [← h.1]; exact IdsKept.refl _
  · simp at h

/-! ## Many jobs -/

/-- What the insertion of jobs does. -/
structure Sub (jobs : List Job) (ss ss' : SlotSet) : Prop where
  wf : WF ss'
  begin_ : ss'.begin_ = ss.begin_
  end_ : ss'.end_ = ss.end_
  cache : ss'.cache = ss.cache
  ids : IdsKept ss ss'
  free : ∀ t x, Free ss' t x → Free ss t x
  taken : ∀ j ∈ jobs, ∀ w R, j.walltime = some w → j.resSet = some R → ∀ x ∈ R, ∀ t, j.startTime ≤ t → t < j.startTime + w → ¬ Free ss' t x
  back : ∀ t x, Free ss t x → (∀ j ∈ jobs, ∀ w R, j.walltime = some w → j.resSet = some R → x ∈ R → t < j.startTime ∨ j.startTime + w < t) → Free ss' t x
  begins : (∀ j ∈ jobs, j.startTime ≤ ss.begin_) → KeepsBegins ss ss'

/-- A job which can be inserted. -/
def Placed (j : Job) : Prop := ∃ w R, j.walltime = some w ∧ j.resSet = some R ∧ 1 ≤ w

theorem free_bounds {ss : SlotSet} (h : WF ss) {t : Int} {x : Nat} (hf : Free ss t x) : ss.begin_ ≤ t ∧ t ≤ ss.end_ := by
  obtain ⟨p, hp, _⟩ := (free_iff h t x).1 hf
  exact (pay_isSome_iff h t).1 (by rw [hp]; rfl)

theorem splitJobsLoop_sub {ctx : Ctx} : ∀ (jobs : List Job) (ss ss' : SlotSet) (f : Slot), WF ss → f ∈ ss.slots →
    (∀ j ∈ jobs, f.b ≤ j.startTime ∨ f.b = ss.begin_) → jobs.Pairwise (fun a b => a.startTime ≤ b.startTime) → (∀ j ∈ jobs, Placed j) →
    SlotSet.splitJobsLoop ctx true jobs ss f.id = some ss' → Sub jobs ss ss'
  | [], ss, ss', f, hwf, _, _, _, _, h => by
    simp only [SlotSet.splitJobsLoop, Option.some.injEq] at h
    subst h
    exact ⟨hwf, rfl, rfl, rfl, IdsKept.refl _, fun _ _ h => h, by simp, fun _ _ h _ => h, fun _ => KeepsBegins.refl _⟩
  | j :: js, ss, ss', f, hwf, hf, hfb, hs, hp, h => by
    obtain ⟨w, R, hw, hR, hw1⟩ := hp j (by simp)
    have hs1 : (∀ a ∈ js, j.startTime ≤ a.startTime) ∧ js.Pairwise (fun a b => a.startTime ≤ b.startTime) := List.pairwise_cons.1 hs
    unfold SlotSet.splitJobsLoop at h
    cases h1 : ss.splitJobStep ctx true f.id j with
    | none => rw [h1] at h; simp at h
    | some y =>
      obtain ⟨ss1, fid⟩ := y
      rw [h1] at h
      dsimp only at h
      have hids := splitJobStep_ids h1
      by_cases hin : ss.begin_ ≤ j.startTime + w ∧ j.startTime ≤ ss.end_
      · obtain ⟨ss2, fid2, e1, e2, e3, _, ekb, ⟨f', m1, m2, m3⟩, hi, e5, e6⟩ :=
          splitJobStep_spec (ctx := ctx) (sub := true) hwf hf (hfb j (by simp)) hw hR hw1 hin
        rw [h1, Option.some.injEq, Prod.mk.injEq] at e1
        obtain ⟨rfl, rfl⟩ := e1
        rw [← m2] at h
        have hrec := splitJobsLoop_sub js ss1 ss' f' e2 m1 (by
          intro a ha
          rcases m3 with m3 | m3
          · left; rw [m3]; exact hs1.1 a ha
          · right; rw [m3, e3.1]) hs1.2 (fun a ha => hp a (List.mem_cons_of_mem _ ha)) h
        have hfree : ∀ t x, Free ss1 t x ↔ Free ss t x ∧ ¬ (x ∈ R ∧ (j.startTime ≤ t ∧ t ≤ hi)) :=
          fun t x => free_map_sub hwf e2 (e5 t) x
        refine ⟨hrec.wf, hrec.begin_.trans e3.1, hrec.end_.trans e3.2.1, hrec.cache.trans e3.2.2, hids.trans hrec.ids,
          fun t x hx => ((hfree t x).1 (hrec.free t x hx)).1, ?_, ?_, fun hle => (ekb (hle j (by simp))).trans (hrec.begins (fun a ha => by
            rw [e3.1]; exact hle a (List.mem_cons_of_mem _ ha)))⟩
        rotate_left
        · intro t x hx hno
          refine hrec.back t x ((hfree t x).2 ⟨hx, ?_⟩) (fun a ha => hno a (List.mem_cons_of_mem _ ha))
          rintro ⟨g1, g2, g3⟩
          have := hno j (by simp) w R hw hR g1
          rcases e6 with e6 | ⟨e6, _⟩
          · rw [e6] at g3; omega
          · rw [e6] at g3; omega
        intro a ha w' R' hw' hR' x hx t t1 t2 hF
        rcases List.mem_cons.1 ha with rfl | ha
        · rw [hw, Option.some.injEq] at hw'
          rw [hR, Option.some.injEq] at hR'
          subst hw'; subst hR'
          have hF1 := hrec.free t x hF
          obtain ⟨g1, g2⟩ := (hfree t x).1 hF1
          have hb := free_bounds hwf g1
          apply g2
          refine ⟨hx, t1, ?_⟩
          rcases e6 with e6 | ⟨e6, _⟩
          · rw [e6]; omega
          · rw [e6]; omega
        · exact hrec.taken a ha w' R' hw' hR' x hx t t1 t2 hF
      · have hskip : ss1 = ss ∧ fid = f.id := by
          unfold SlotSet.splitJobStep at h1
          simp only [hw, hR] at h1
          rw [if_neg (by omega)] at h1
          simp only [Option.some.injEq, Prod.mk.injEq] at h1
          exact ⟨h1.1.symm, h1.2.symm⟩
        obtain ⟨rfl, rfl⟩ := hskip
        have hrec := splitJobsLoop_sub js ss1 ss' f hwf hf (fun a ha => hfb a (List.mem_cons_of_mem _ ha)) hs1.2
          (fun a ha => hp a (List.mem_cons_of_mem _ ha)) h
        refine ⟨hrec.wf, hrec.begin_, hrec.end_, hrec.cache, hrec.ids, hrec.free, ?_, fun t x hx hno => hrec.back t x hx (fun a ha => hno a (List.mem_cons_of_mem _ ha)),
          fun hle => hrec.begins (fun a ha => hle a (List.mem_cons_of_mem _ ha))⟩
        intro a ha w' R' hw' hR' x hx t t1 t2 hF
        rcases List.mem_cons.1 ha with rfl | ha
        · rw [hw, Option.some.injEq] at hw'
          subst hw'
          have hb := free_bounds hwf (hrec.free t x hF)
          omega
        · exact hrec.taken a ha w' R' hw' hR' x hx t t1 t2 hF

theorem splitJobs_sub {ctx : Ctx} {jobs : List Job} {ss ss' : SlotSet} (hwf : WF ss) (hs : jobs.Pairwise (fun a b => a.startTime ≤ b.startTime))
    (hp : ∀ j ∈ jobs, Placed j) (h : ss.splitJobs ctx jobs true = some ss') : Sub jobs ss ss' := by
  unfold SlotSet.splitJobs at h
  obtain ⟨c, hc⟩ := id hwf
  cases c with
  | nil => exact absurd rfl hc.ne
  | cons f r =>
    rw [hc.first] at h
    dsimp only at h
    refine splitJobsLoop_sub jobs ss ss' f hwf (hc.mem_iff.2 (by simp)) (fun j _ => Or.inr ?_) hs hp h
    exact hc.tiled.1

theorem Sub.cacheIds {jobs : List Job} {ss ss' : SlotSet} (h : Sub jobs ss ss') (hc : CacheIds ss) : CacheIds ss' := by
  intro k i hk
  rw [h.cache] at hk
  obtain ⟨s, hs, rfl⟩ := hc k i hk
  exact h.ids s hs

theorem Sub.setOk {jobs : List Job} {ss ss' : SlotSet} (h : Sub jobs ss ss') (hc : SetOk ss) : SetOk ss' :=
  ⟨h.wf, h.cacheIds hc.2.1, by rw [h.end_]; exact hc.2.2⟩

/-! ## The jobs already placed -/

/-- The jobs kept by the two flags. -/
def kept (filterBe onlyBe : Bool) (j : Job) : Bool :=
  (!filterBe && j.hasType "besteffort") || (!onlyBe && !j.hasType "besteffort")

theorem prevLoop_default {ctx : Ctx} {sec now : Int} {fb ob : Bool} : ∀ (js : List Job) (sets : List (String × SlotSet)) (acc : List Job),
    (∀ j ∈ js, j.types.lookup "container" = none ∧ j.types.lookup "inner" = none) →
    prevLoop ctx sec now fb ob js sets [("default", acc)] = some (sets, [("default", acc ++ js.filter (kept fb ob))])
  | [], sets, acc, _ => by simp [prevLoop]
  | j :: js, sets, acc, h => by
    obtain ⟨h1, h2⟩ := h j (by simp)
    have hn : j.setName = "default" := by unfold Job.setName; rw [h2]; rfl
    have hrec := fun acc => prevLoop_default (ctx := ctx) (sec := sec) (now := now) (fb := fb) (ob := ob) js sets acc (fun a ha => h a (List.mem_cons_of_mem _ ha))
    unfold prevLoop
    dsimp only
    by_cases hk : kept fb ob j = true
    · rw [if_pos (by
        unfold kept at hk
        cases fb <;> cases ob <;> cases hb : j.hasType "besteffort" <;> simp_all)]
      rw [h1]
      dsimp only
      rw [hn]
      have : dictSet "default" ((List.lookup "default" [("default", acc)]).getD [] ++ [j]) [("default", acc)] = [("default", acc ++ [j])] := by
        simp [dictSet]
      rw [this, hrec, List.filter_cons_of_pos hk]
      simp
    · rw [if_neg (by
        unfold kept at hk
        cases fb <;> cases ob <;> cases hb : j.hasType "besteffort" <;> simp_all)]
      rw [hrec, List.filter_cons_of_neg hk]

theorem insertGroups_default {ctx : Ctx} {jobs : List Job} : ∀ (sets sets' : List (String × SlotSet)),
    insertGroups ctx [("default", jobs)] sets = some sets' → ∀ ss, sets.lookup "default" = some ss →
    ∃ ss', ss.splitJobs ctx jobs true = some ss' ∧ sets'.lookup "default" = some ss'
  | [], sets', h, ss, hl => by simp at hl
  | (n, s) :: rest, sets', h, ss, hl => by
    unfold insertGroups at h
    split at h
    · rename_i s1 rest' h1 h2
      simp only [Option.some.injEq] at h
      subst h
      by_cases hn : n = "default"
      · subst hn
        simp only [List.lookup_cons_self, Option.some.injEq] at hl
        subst hl
        simp only [List.lookup_cons_self] at h1
        exact ⟨s1, h1, by simp⟩
      · have hb : ("default" == n) = false := by simpa using fun e => hn e.symm
        rw [List.lookup_cons, hb] at hl
        obtain ⟨ss', e1, e2⟩ := insertGroups_default rest rest' h2 ss hl
        exact ⟨ss', e1, by rw [List.lookup_cons, hb]; exact e2⟩
    · simp at h

/-- The jobs of the Gantt, none a container or inside one, are inserted in the default timeline. -/
theorem setPrev_sub {ctx : Ctx} {sets sets' : List (String × SlotSet)} {jobs : List Job} {sec now : Int} {fb ob : Bool} {ss : SlotSet}
    (hc : ∀ j ∈ jobs, j.types.lookup "container" = none ∧ j.types.lookup "inner" = none) (hwf : WF ss)
    (hs : jobs.Pairwise (fun a b => a.startTime ≤ b.startTime)) (hp : ∀ j ∈ jobs, Placed j) (hl : sets.lookup "default" = some ss)
    (h : setPrev ctx sets jobs sec now fb ob = some sets') : ∃ ss', sets'.lookup "default" = some ss' ∧ Sub (jobs.filter (kept fb ob)) ss ss' := by
  unfold setPrev at h
  rw [prevLoop_default jobs sets [] hc] at h
  dsimp only at h
  rw [List.nil_append] at h
  obtain ⟨ss', e1, e2⟩ := insertGroups_default _ _ h ss hl
  exact ⟨ss', e2, splitJobs_sub hwf (hs.sublist List.filter_sublist) (fun j hj => hp j (List.mem_of_mem_filter hj)) e1⟩

/-! ## The outcome of a pass -/

/-- `R` answers the alternative `m` at the date `t` with resources free in `s0`. -/
structure Answered (s0 : SlotSet) (hy : Hy) (m : Mld) (t : Int) (R : ProcSet) : Prop where
  ne : R ≠ ∅
  lo : s0.begin_ ≤ t
  free : ∀ x ∈ R, FreeDuring s0 t m.walltime x
  shape : ∃ A : ProcSet, (∀ x ∈ A, FreeDuring s0 t m.walltime x) ∧ findJob A m.groups hy = some R

/-- A job treated by a pass: not placed, or placed with one of its alternatives, on resources free in `s0`. -/
def Outcome (s0 : SlotSet) (hy : Hy) (mlds : List Mld) (a : Job) : Prop :=
  a.startTime = -1 ∨ ∃ m ∈ mlds, ∃ R, a.moldableId = m.id ∧ a.walltime = some m.walltime ∧ 0 < m.walltime ∧ a.resSet = some R ∧ Answered s0 hy m a.startTime R

theorem scheduleOne_outcome {n : String} {s0 : SlotSet} {ids : List Nat} {hy : Hy} {sec : Int} {st st' : Sched} {jid : Nat}
    (hinv : PassInv n s0 ids st) (hjob : ∀ job, st.job? jid = some job → Fresh n job ∧ Stable st.ctx job.mlds none ∧ job.setName = n)
    (h : scheduleOne hy sec st jid = some st') :
    st'.jobs.map (·.id) = st.jobs.map (·.id) ∧
    ∀ a', st'.job? jid = some a' → ∃ a, st.job? jid = some a ∧ a'.types = a.types ∧ a'.mlds = a.mlds ∧ (a'.startTime = -1 → 0 ≤ s0.begin_ → a'.walltime = a.walltime) ∧ Outcome s0 hy a.mlds a' := by
  obtain ⟨job, hj, hid, hcase⟩ := scheduleOne_cases h
  obtain ⟨⟨hpl, hun, hno⟩, hstab, hname⟩ := hjob job hj
  obtain ⟨ssn, k1, k2, k3, k4, k5, k6⟩ := hinv.set_
  have hids : ∀ (st : Sched) (j : Job), (st.setJob j).jobs.map (·.id) = st.jobs.map (·.id) := by
    intro st j
    unfold Sched.setJob
    dsimp only
    rw [List.map_map]
    apply List.map_congr_left
    intro x _
    dsimp only [Function.comp]
    split
    · rename_i e; exact e.symm
    · rfl
  rcases hcase with ⟨_, hst'⟩ | ⟨minStart, ss, ctx', ss', job', ctx'', sets', _, hl, ha, ho, hst'⟩
  · subst hst'
    refine ⟨hids _ _, fun a' ha' => ⟨job, hj, ?_⟩⟩
    rw [job?_setJob, if_pos hid.symm, hj] at ha'
    simp only [Option.map_some, Option.some.injEq] at ha'
    subst ha'
    exact ⟨rfl, rfl, fun _ _ => rfl, Or.inl rfl⟩
  · subst hst'
    refine ⟨hids _ _, fun a' ha' => ⟨job, hj, ?_⟩⟩
    obtain ⟨s1, s2, s3, _⟩ := assign_static ha
    rw [job?_setJob_ctx, job?_setJob, if_pos (s1.trans hid).symm, hj] at ha'
    simp only [Option.map_some, Option.some.injEq] at ha'
    subst ha'
    refine ⟨s2, s3, ?_⟩
    rw [hname, k1, Option.some.injEq] at hl
    subst hl
    obtain ⟨_, _, _, _, _, _, q7⟩ := assign_spec hpl k2.1 k2.2.1 k2.2.2 hstab ha
    cases q7 with
    | no hj' _ => exact ⟨fun _ _ => by rw [hj'], Or.inl (by rw [hj'])⟩
    | yes m R t0 extra hm hw' hj' hans _ =>
      have hlo := hans.lo
      refine ⟨fun h1 h2 => by rw [hj'] at h1; dsimp only at h1; omega, Or.inr ⟨m, hm, R, ?_⟩⟩
      rw [hj']
      obtain ⟨A, hA, hj⟩ := hans.shape
      exact ⟨rfl, rfl, hw', rfl, hans.ne, by rw [← k3]; exact hans.lo, fun x hx t h1 h2 => k5 t x (hans.free x hx t h1 h2),
        A, fun x hx t h1 h2 => k5 t x ((hA x).1 hx t h1 h2), hj⟩

theorem schedule_outcome {n : String} {s0 : SlotSet} {hy : Hy} {sec : Int} :
    ∀ (jids ids : List Nat) (st st' : Sched), PassInv n s0 ids st → jids.Nodup → (∀ i ∈ jids, i ∉ ids) →
    (∀ jid ∈ jids, ∀ job, st.job? jid = some job → Fresh n job ∧ job.setName = n) → st.ctx.cal = none →
    schedule hy sec jids st = some st' →
    st'.ctx = st.ctx ∧ st'.jobs.map (·.id) = st.jobs.map (·.id) ∧ (∃ ids', (∀ i, i ∈ ids' ↔ i ∈ jids ∨ i ∈ ids) ∧ PassInv n s0 ids' st') ∧
    (∀ i, i ∉ jids → st'.job? i = st.job? i) ∧
    ∀ jid ∈ jids, ∀ a', st'.job? jid = some a' → ∃ a, st.job? jid = some a ∧ a'.types = a.types ∧ a'.mlds = a.mlds ∧ (a'.startTime = -1 → 0 ≤ s0.begin_ → a'.walltime = a.walltime) ∧ Outcome s0 hy a.mlds a'
  | [], ids, st, st', hinv, _, _, _, _, h => by
    simp only [schedule, Option.some.injEq] at h
    subst h
    exact ⟨rfl, rfl, ⟨ids, by simp, hinv⟩, fun _ _ => rfl, by simp⟩
  | jid :: jids, ids, st, st', hinv, hnd, hdis, hfresh, hcal, h => by
    unfold schedule at h
    cases h1 : scheduleOne hy sec st jid with
    | none => rw [h1] at h; simp at h
    | some st1 =>
      rw [h1] at h
      dsimp only at h
      have hnd1 : jid ∉ jids ∧ jids.Nodup := List.nodup_cons.1 hnd
      have hinv1 := passInv_step hinv (hdis jid (by simp)) (fun job hj => ⟨(hfresh jid (by simp) job hj).1, Or.inl hcal⟩) h1
      have hother : ∀ i, i ≠ jid → st1.job? i = st.job? i := fun i hi => scheduleOne_job? h1 hi
      have hctx := scheduleOne_cal h1 hcal
      obtain ⟨o1, o2⟩ := scheduleOne_outcome hinv (fun job hj => ⟨(hfresh jid (by simp) job hj).1, Or.inl hcal, (hfresh jid (by simp) job hj).2⟩) h1
      obtain ⟨r1, r2, ⟨ids', g1, g2⟩, r3, r4⟩ := schedule_outcome jids (jid :: ids) st1 st' hinv1 hnd1.2
        (fun i hi => by
          rw [List.mem_cons]
          rintro (e | e)
          · exact hnd1.1 (e ▸ hi)
          · exact hdis i (List.mem_cons_of_mem _ hi) e)
        (fun i hi job hj => hfresh i (List.mem_cons_of_mem _ hi) job (by
          rw [← hother i (fun e => hnd1.1 (e ▸ hi))]; exact hj))
        (by rw [hctx]; exact hcal) h
      refine ⟨r1.trans hctx, r2.trans o1, ⟨ids', fun i => ?_, g2⟩, fun i hi => ?_, ?_⟩
      · rw [g1, List.mem_cons, List.mem_cons]
        tauto
      · rw [List.mem_cons, not_or] at hi
        rw [r3 i hi.2, hother i hi.1]
      · intro i hi a' ha'
        rcases List.mem_cons.1 hi with rfl | hi
        · rw [r3 i hnd1.1] at ha'
          exact o2 a' ha'
        · obtain ⟨a, q1, q2⟩ := r4 i hi a' ha'
          exact ⟨a, by rw [← hother i (fun e => hnd1.1 (e ▸ hi))]; exact q1, q2⟩

end Oar.Kao
