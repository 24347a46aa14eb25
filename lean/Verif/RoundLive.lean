import Verif.RoundRequest
import Verif.SchedGrid

/-!
# A waiting job is delayed only by the jobs before it (C97)
-/

namespace Oar.Hierarchy
open Spec

/-! ## What a request accepts does not depend on the order of the blocks -/

theorem perm_map_inv {α β : Type} {f : α → β} {l l' : List β} (h : l.Perm l') : ∀ c : List α, c.map f = l → ∃ c' : List α, c'.Perm c ∧ c'.map f = l' := by
  induction h with
  | nil => intro c hc; exact ⟨c, List.Perm.refl _, hc⟩
  | cons x _ ih =>
    intro c hc
    cases c with
    | nil => simp at hc
    | cons a c =>
      rw [List.map_cons, List.cons.injEq] at hc
      obtain ⟨c', p, e⟩ := ih c hc.2
      exact ⟨a :: c', p.cons a, by rw [List.map_cons, e, hc.1]⟩
  | swap x y l =>
    intro c hc
    cases c with
    | nil => simp at hc
    | cons a c =>
      cases c with
      | nil => simp at hc
      | cons b c =>
        simp only [List.map_cons, List.cons.injEq] at hc
        exact ⟨b :: a :: c, List.Perm.swap a b c, by simp [hc]⟩
  | trans _ _ ih1 ih2 =>
    intro c hc
    obtain ⟨c1, p1, e1⟩ := ih1 c hc
    obtain ⟨c2, p2, e2⟩ := ih2 c1 e1
    exact ⟨c2, p2.trans p1, e2⟩

theorem bigUnion_perm {l l' : List ProcSet} (h : l.Perm l') : bigUnion l = bigUnion l' := by
  ext x
  simp only [mem_bigUnion, h.mem_iff]

theorem childrenOf_perm {b : ProcSet} {sub sub' : List ProcSet} {last : Bool} (h : sub.Perm sub') : (childrenOf b sub last).Perm (childrenOf b sub' last) := by
  unfold childrenOf
  split
  · exact (h.filter _).map _
  · exact h.filter _

theorem granted_perm {avail : ProcSet} : ∀ (lower lower' : List (List ProcSet)) (ns : List Int) (top top' : List ProcSet) (r : ProcSet),
    List.Forall₂ List.Perm lower lower' → top.Perm top' → Granted avail lower ns top r → Granted avail lower' ns top' r
  | [], lower', [n], top, top', r, hl, ht, h => by
    cases hl
    obtain ⟨S, h1, h2, h3, h4⟩ := h
    obtain ⟨S', p, q⟩ := h1.subperm.trans ht.subperm
    exact ⟨S', q, by rw [p.length_eq]; exact h2, fun b hb => h3 b (p.mem_iff.1 hb), by rw [h4]; exact (bigUnion_perm p).symm⟩
  | sub :: rest, lower', n :: ns, top, top', r, hl, ht, h => by
    cases hl with
    | cons hs hr =>
      rename_i sub' rest'
      obtain ⟨c, h1, h2, h3, h4⟩ := h
      obtain ⟨S', p, q⟩ := h1.subperm.trans ht.subperm
      obtain ⟨c', p', e⟩ := perm_map_inv p.symm c rfl
      have he : rest.isEmpty = rest'.isEmpty := by cases hr <;> rfl
      refine ⟨c', by rw [e]; exact q, by rw [p'.length_eq]; exact h2, fun x hx => ?_, by rw [h4]; exact bigUnion_perm (p'.map _).symm⟩
      obtain ⟨k1, k2⟩ := h3 x (p'.mem_iff.1 hx)
      refine ⟨k1, granted_perm rest rest' ns _ _ _ hr ?_ k2⟩
      rw [he]
      exact childrenOf_perm hs
  | [], _, [], _, _, _, _, _, h => h.elim
  | [], _, _ :: _ :: _, _, _, _, _, _, h => h.elim
  | _ :: _, _, [], _, _, _, _, _, h => h.elim

/-- The resources of an allocation suffice. -/
theorem granted_self {avail : ProcSet} : ∀ (lower : List (List ProcSet)) (ns : List Int) (top : List ProcSet) (r : ProcSet),
    Granted avail lower ns top r → Granted r lower ns top r
  | [], [n], top, r, h => by
    obtain ⟨S, h1, h2, h3, h4⟩ := h
    exact ⟨S, h1, h2, fun b hb x hx => by rw [h4]; exact mem_bigUnion.2 ⟨b, hb, hx⟩, h4⟩
  | sub :: rest, n :: ns, top, r, h => by
    obtain ⟨c, h1, h2, h3, h4⟩ := h
    refine ⟨c, h1, h2, fun p hp => ⟨(h3 p hp).1, ?_⟩, h4⟩
    refine granted_mono ?_ _ _ _ _ (granted_self rest ns _ _ (h3 p hp).2)
    intro x hx
    rw [h4]
    exact mem_bigUnion.2 ⟨p.2, List.mem_map.2 ⟨p, hp, rfl⟩, hx⟩
  | [], [], _, _, h => h.elim
  | [], _ :: _ :: _, _, _, h => h.elim
  | _ :: _, [], _, _, h => h.elim

end Oar.Hierarchy

namespace Oar.Kao
open Spec Oar.Hierarchy

/-! ## A pass leaves room -/

/-- The resources are free during the window. -/
def Clear (ss : SlotSet) (A : ProcSet) (t w : Int) : Prop := ∀ x ∈ A, FreeDuring ss t w x

/-- The job, if it is placed, is not on these resources during the window. -/
def Apart (A : ProcSet) (t W : Int) (a : Job) : Prop :=
  a.startTime = -1 ∨ ∀ w R, a.walltime = some w → a.resSet = some R → ∀ x ∈ A, x ∈ R → t + W ≤ a.startTime ∨ a.startTime + w < t

/-- What is known of the default timeline. -/
structure Roomy (dec : Decode) (hy : Hy) (A : ProcSet) (t W : Int) (n : String) (now : Int) (sets : List (String × SlotSet)) (ss : SlotSet) : Prop where
  set_ : sets.lookup n = some ss
  ok : SetOk ss
  begin_ : ss.begin_ = now
  cache : CacheOk dec hy ss
  clear : Clear ss A t W

/-- The requests can be read and searched. -/
structure Searchable (dec : Decode) (hy : Hy) (n : String) (job : Job) : Prop where
  fresh : Fresh n job
  name : job.setName = n
  key : KeyOk dec job
  ok : ∀ m ∈ job.mlds, ∀ g ∈ m.groups, GroupOk hy g

theorem scheduleOne_roomy {dec : Decode} {hy : Hy} {A : ProcSet} {t W now sec : Int} {n : String} {st st' : Sched} {jid : Nat} {ss : SlotSet}
    (hr : Roomy dec hy A t W n now st.sets ss) (hnow : 0 ≤ now) (hcal : st.ctx.cal = none) (hjob : ∀ job, st.job? jid = some job → Searchable dec hy n job)
    (hap : ∀ a, st'.job? jid = some a → Apart A t W a) (h : scheduleOne hy sec st jid = some st') :
    ∃ ss', Roomy dec hy A t W n now st'.sets ss' := by
  obtain ⟨job, hj, hid, hcase⟩ := scheduleOne_cases h
  obtain ⟨⟨hpl, hun, hno⟩, hname, hk, hok⟩ := hjob job hj
  rcases hcase with ⟨_, hst'⟩ | ⟨minStart, ss1, ctx', ss', job', ctx'', sets', _, hl, ha, ho, hst'⟩
  · refine ⟨ss, ?_, hr.ok, hr.begin_, hr.cache, hr.clear⟩
    rw [hst']
    exact hr.set_
  · rw [hname, hr.set_, Option.some.injEq] at hl
    subst hl
    obtain ⟨s1, s2, s3, _⟩ := assign_static ha
    obtain ⟨_, q2, q3, q4, q5, _, q7⟩ := assign_spec hpl hr.ok.1 hr.ok.2.1 hr.ok.2.2 (Or.inl hcal) ha
    have hc' := assign_cache hpl hk hok hr.ok.1 hr.cache hr.ok.2.2 (Or.inl hcal) ha
    have hno' : ¬ Opens job' n := by
      rintro ⟨v, hv, he⟩
      exact hno ⟨v, by rw [← s2]; exact hv, by rw [← he]; unfold Job.containerName; rw [s1]⟩
    have hlk := openContainer_other hno' ho
    rw [lookup_dictSet, hname, if_pos rfl] at hlk
    have ha' : st'.job? jid = some job' := by
      rw [hst', job?_setJob_ctx, job?_setJob, if_pos (s1.trans hid).symm, hj]
      rfl
    refine ⟨ss', by rw [hst']; exact hlk, ⟨q2, q3, by rw [q5]; exact hr.ok.2.2⟩, q4.trans hr.begin_, hc', ?_⟩
    intro x hx u u1 u2
    have hF := hr.clear x hx u u1 u2
    cases q7 with
    | no _ hfree => exact (hfree u x).2 hF
    | yes m R t0 extra hm hw' hj' hans hfree =>
      rw [hfree]
      refine ⟨hF, ?_⟩
      rintro ⟨g1, g2, g3⟩
      rcases hap job' ha' with e | e
      · have h1 : job'.startTime = t0 := by rw [hj']
        have h2 := hans.lo
        rw [hr.begin_] at h2
        omega
      · have := e m.walltime R (by rw [hj']) (by rw [hj']) x hx g1
        have h1 : job'.startTime = t0 := by rw [hj']
        rw [h1] at this
        omega

theorem schedule_roomy {dec : Decode} {hy : Hy} {A : ProcSet} {t W now sec : Int} {n : String} (hnow : 0 ≤ now) : ∀ (jids : List Nat) (st st' : Sched) (ss : SlotSet),
    Roomy dec hy A t W n now st.sets ss → st.ctx.cal = none → jids.Nodup → (∀ i ∈ jids, ∀ job, st.job? i = some job → Searchable dec hy n job) →
    (∀ i ∈ jids, ∀ a, st'.job? i = some a → Apart A t W a) → schedule hy sec jids st = some st' →
    st'.ctx = st.ctx ∧ ∃ ss', Roomy dec hy A t W n now st'.sets ss'
  | [], st, st', ss, hr, _, _, _, _, h => by
    simp only [schedule, Option.some.injEq] at h
    subst h
    exact ⟨rfl, ss, hr⟩
  | jid :: jids, st, st', ss, hr, hcal, hnd, hjob, hap, h => by
    unfold schedule at h
    cases h1 : scheduleOne hy sec st jid with
    | none => rw [h1] at h; simp at h
    | some st1 =>
      rw [h1] at h
      dsimp only at h
      have hnd1 : jid ∉ jids ∧ jids.Nodup := List.nodup_cons.1 hnd
      have hctx := scheduleOne_cal h1 hcal
      obtain ⟨ss1, r1⟩ := scheduleOne_roomy hr hnow hcal (hjob jid (by simp)) (fun a ha => hap jid (by simp) a (by
        rw [schedule_job? jids st1 st' jid hnd1.1 h]; exact ha)) h1
      obtain ⟨g1, g2⟩ := schedule_roomy hnow jids st1 st' ss1 r1 (by rw [hctx]; exact hcal) hnd1.2 (fun i hi job hj => hjob i (List.mem_cons_of_mem _ hi) job (by
        rw [← scheduleOne_job? h1 (fun e => hnd1.1 (e ▸ hi))]; exact hj)) (fun i hi => hap i (List.mem_cons_of_mem _ hi)) h
      exact ⟨g1.trans hctx, g2⟩

/-- Nothing is awaited from dependencies that are over; the others are awaited until their end. -/
theorem depsLoop_clears {st : Sched} (t : Int) : ∀ (ds : List Dep) (m : Int), m ≤ t →
    (∀ d ∈ ds, d.state = "Error" ∨ (d.state = "Terminated" ∧ (d.exitCode = some 0 ∨ d.exitCode = none)) ∨
      (d.state = "Waiting" ∧ ∃ jd, st.job? d.jid = some jd ∧ jd.stop ≤ t)) → ∃ ms, depsLoop st ds m = some ms ∧ ms ≤ t
  | [], m, hm, _ => ⟨m, rfl, hm⟩
  | d :: ds, m, hm, h => by
    have hr := depsLoop_clears (st := st) t ds m hm (fun d' hd' => h d' (List.mem_cons_of_mem _ hd'))
    unfold depsLoop
    rcases h d (by simp) with h1 | h1 | ⟨h1, jd, h2, h3⟩
    · rw [if_pos h1]; exact hr
    · have h2 : ¬ d.state = "Error" := by rw [h1.1]; decide
      have h3 : ¬ d.state = "Waiting" := by rw [h1.1]; decide
      rw [if_neg h2, if_neg h3, if_pos h1]; exact hr
    · have h4 : ¬ d.state = "Error" := by rw [h1]; decide
      rw [if_neg h4, if_pos h1, h2]
      dsimp only
      exact depsLoop_clears t ds _ (by split <;> omega) (fun d' hd' => h d' (List.mem_cons_of_mem _ hd'))

/-- The job `wid` is placed in the room. -/
theorem scheduleOne_places {dec : Decode} {hy : Hy} {A : ProcSet} {t W now sec : Int} {n : String} {st st' : Sched} {ss : SlotSet} {w : Job} {m : Mld} {wid : Nat}
    (hr : Roomy dec hy A t W n now st.sets ss) (hw : st.job? wid = some w) (hs : Searchable dec hy n w) (hd : ∃ ms, depsLoop st w.deps (-1) = some ms ∧ ms ≤ t)
    (hq : NoQuotas st.ctx w) (hm : m ∈ w.mlds) (hW : m.walltime = W) (hpos : 0 < W) (hsat : Satisfiable hy m.groups A) (h : scheduleOne hy sec st wid = some st') :
    ∃ a, st'.job? wid = some a ∧ ∃ m' ∈ w.mlds, a.moldableId = m'.id ∧ a.walltime = some m'.walltime ∧ now ≤ a.startTime ∧ a.startTime + m'.walltime ≤ t + W ∧
      ∃ R, a.resSet = some R ∧ R ≠ ∅ := by
  obtain ⟨job, hj, hid, hcase⟩ := scheduleOne_cases h
  rw [hw, Option.some.injEq] at hj
  subst hj
  obtain ⟨ms, hd1, hd2⟩ := hd
  rw [hd1] at hcase
  rcases hcase with ⟨hdl, _⟩ | ⟨minStart, ss1, ctx', ss', job', ctx'', sets', hdl, hl, ha, ho, hst'⟩
  · simp at hdl
  · simp only [Option.some.injEq] at hdl
    rw [hs.name, hr.set_, Option.some.injEq] at hl
    subst hl
    have hfeas : Feasible ss hy m.groups m.walltime t := by
      rw [hW]
      classical
      -- the resources free during the window
      obtain ⟨F, hF⟩ : ∃ F : ProcSet, ∀ x, x ∈ F ↔ FreeDuring ss t W x := freeDuring_finite hr.ok.1 hpos
      refine ⟨F, hF, satisfiable_mono (fun x hx => (hF x).2 (hr.clear x hx)) hsat⟩
    have hall : Allowed minStart t := Or.inr (by omega)
    obtain ⟨s1, _⟩ := assign_static ha
    refine ⟨job', ?_, ?_⟩
    · rw [hst', job?_setJob_ctx, job?_setJob, if_pos (s1.trans hid).symm, hw]
      rfl
    · rcases assign_opt hs.fresh.plain hs.key hs.ok hq hr.ok.1 hr.cache hr.ok.2.2 ha with ⟨_, _, hno⟩ | ⟨pre, m', post, k1, k2, k3, k4, k5, R, k6, k7⟩
      · exact absurd hfeas (hno m hm t hall)
      · refine ⟨m', by rw [k1]; simp, k2, k3, by rw [← hr.begin_]; exact k7.lo, ?_, R, k6, k7.ne⟩
        rw [k1, List.mem_append] at hm
        rcases hm with hm | hm
        · have := k4 m hm t hall hfeas
          omega
        · have := k5 m hm t hall hfeas
          omega

end Oar.Kao

namespace Oar.Round

open Oar.Launch Oar.ResSet Oar.JobTypes Oar.Tools Oar.Queues Spec Oar.Kao.Spec Oar.Hierarchy

theorem isLevel_perm {rs : List Res} {label : String} {B B' : List ProcSet} (h : IsLevel rs label B) (h' : IsLevel rs label B') : B.Perm B' :=
  (List.perm_ext_iff_of_nodup h.1 h'.1).2 (fun S => by rw [h.2, h'.2])

/-- The labels of the hierarchy. -/
theorem hy_labels {susp labels : List String} {rs : List Res} {s : RS} (hb : build susp labels rs = some s) : s.hy.map (·.1) = labels := by
  have key : ∀ (rs : List Res) (k : Nat) (s s' : RS), load susp k rs s = some s' → s'.hy.map (·.1) = s.hy.map (·.1) := by
    intro rs
    induction rs with
    | nil => intro k s s' h; simp only [load, Option.some.injEq] at h; rw [h]
    | cons r rs ih =>
      intro k s s' h
      unfold load at h
      cases h1 : addRes susp k r s with
      | none => rw [h1] at h; simp at h
      | some s1 =>
        rw [h1, Option.bind_some] at h
        rw [ih _ _ _ h]
        unfold addRes at h1
        dsimp only at h1
        split at h1
        · split at h1
          · simp only [Option.some.injEq] at h1
            rw [← h1]
            simp [addUsable, Function.comp_def]
          · simp at h1
        · simp only [Option.some.injEq] at h1
          rw [← h1]
  rw [key rs 0 _ s hb]
  simp [ResSet.init, Function.comp_def]

theorem lookup_of_label {s : RS} {label : String} (h : label ∈ s.hy.map (·.1)) : ∃ B, (hyOf s).lookup label = some B := by
  unfold hyOf
  generalize s.hy = l at h
  induction l with
  | nil => simp at h
  | cons p l ih =>
    rw [List.map_cons, List.lookup_cons]
    by_cases e : label = p.1
    · have : (label == p.1) = true := by simpa using e
      rw [this]
      exact ⟨_, rfl⟩
    · have : (label == p.1) = false := by simpa using e
      rw [this]
      rw [List.map_cons, List.mem_cons] at h
      exact ih (h.resolve_left e)

theorem lookupLevels_some {s : RS} : ∀ levels : List (String × Int), (∀ l ∈ levels, l.1 ∈ s.hy.map (·.1)) → ∃ ls, lookupLevels (hyOf s) levels = some ls
  | [], _ => ⟨[], rfl⟩
  | (l, n) :: levels, h => by
    obtain ⟨B, hB⟩ := lookup_of_label (h (l, n) (by simp))
    obtain ⟨ls, hls⟩ := lookupLevels_some levels (fun x hx => h x (List.mem_cons_of_mem _ hx))
    exact ⟨B :: ls, by unfold lookupLevels; rw [hB, hls]⟩

theorem groupOk_of {susp labels : List String} {rs : List Res} {s : RS} (hn : (rs.map Res.id).Nodup) (hb : build susp labels rs = some s)
    {groups : List Group} (hu : (∃ r ∈ rs, r.usable = true) ∨ Counts groups) (h : Readable labels groups) : ∀ g ∈ groups, GroupOk (hyOf s) g := by
  intro g hg
  obtain ⟨h1, h2⟩ := h g hg
  obtain ⟨ls, hls⟩ := lookupLevels_some (s := s) g.levels (fun l hl => by rw [hy_labels hb]; exact h2 l hl)
  have hf := lookupLevels_forall (fun label B hB => hy_lookup hn hb hB) _ _ hls
  have hne : ∀ (levels : List (String × Int)) (ls : List (List ProcSet)), List.Forall₂ (fun l B => IsLevel rs l.1 B) levels ls → ∀ B ∈ ls, ∀ b ∈ B, b ≠ ∅ := by
    intro levels ls hf
    induction hf with
    | nil => simp
    | cons hl _ ih =>
      intro B hB b hbB
      rcases List.mem_cons.1 hB with rfl | hB
      · obtain ⟨k, r, r1, r2, r3⟩ := (hl.2 b).1 hbB
        have : k ∈ b := (r3 k).2 ⟨r, r1, r2, rfl⟩
        exact Finset.ne_empty_of_mem this
      · exact ih B hB b hbB
  cases hlv : g.levels with
  | nil => exact absurd hlv h1
  | cons p ps =>
    rw [hlv] at hf hls
    cases hf with
    | cons hp hps =>
      rename_i top lower
      refine ⟨top, lower, p.2, ps.map (·.2), by rw [hlv]; exact hls, by rw [hlv]; rfl, by simpa using hps.length_eq, fun hlow => ?_,
        hne _ _ (List.Forall₂.cons hp hps) top (by simp), fun l hl => hne _ _ (List.Forall₂.cons hp hps) l (by simp [hl])⟩
      rcases hu with ⟨r, hr, hr2⟩ | hu
      rotate_left
      · left
        refine hu g hg ?_ p (by rw [hlv]; simp)
        rw [hlv]
        have := hps.length_eq
        rw [hlow] at this
        simp only [List.length_nil] at this
        simp [this]
      right
      obtain ⟨k, hk⟩ := List.mem_iff_getElem?.1 hr
      obtain ⟨S, hS⟩ : ∃ S : ProcSet, ∀ k', k' ∈ S ↔ ∃ r' : Res, rs[k']? = some r' ∧ r'.usable = true ∧ r'.value p.1 = r.value p.1 := by
        refine ⟨(Finset.range rs.length).filter (fun k' => ∃ r' : Res, rs[k']? = some r' ∧ r'.usable = true ∧ r'.value p.1 = r.value p.1), fun k' => ?_⟩
        rw [Finset.mem_filter, Finset.mem_range]
        refine ⟨fun h => h.2, fun h => ⟨?_, h⟩⟩
        obtain ⟨r', h', _⟩ := h
        exact (List.getElem?_eq_some_iff.1 h').1
      have hin : S ∈ top := (hp.2 S).2 ⟨k, r, hk, hr2, hS⟩
      exact List.ne_nil_of_mem hin

/-- Resources that answer a request satisfy it, whatever the set that contains them. -/
theorem answers_satisfiable {susp labels : List String} {rs : List Res} {s : RS} (hn : (rs.map Res.id).Nodup) (hb : build susp labels rs = some s)
    {groups : List Group} (hne : groups ≠ []) (hr : Readable labels groups) (hc : Counts groups) {R : ProcSet} (h : Answers rs groups R) : Satisfiable (hyOf s) groups R := by
  obtain ⟨parts, hf, rfl⟩ := h
  refine ⟨hne, fun g hg => ?_⟩
  have hpart : ∃ part ∈ parts, AnswersGroup rs g part := by
    clear hr hc hne
    induction hf with
    | nil => simp at hg
    | cons hp _ ih =>
      rename_i g' part' gs' parts' _
      rcases List.mem_cons.1 hg with rfl | hg
      · exact ⟨part', by simp, hp⟩
      · obtain ⟨q, q1, q2⟩ := ih hg
        exact ⟨q, List.mem_cons_of_mem _ q1, q2⟩
  obtain ⟨part, hpm, hp1, hp2, top, lower, hl, hgr⟩ := hpart
  obtain ⟨h1, h2⟩ := hr g hg
  obtain ⟨ls, hls⟩ := lookupLevels_some (s := s) g.levels (fun l hl => by rw [hy_labels hb]; exact h2 l hl)
  have hf2 := lookupLevels_forall (fun label B hB => hy_lookup hn hb hB) _ _ hls
  have hc1 := hc g hg
  cases hlv : g.levels with
  | nil => exact absurd hlv h1
  | cons p ps =>
    rw [hlv] at hl hf2 hls hgr hc1
    cases hl with
    | cons a1 a2 =>
      cases hf2 with
      | cons b1 b2 =>
        rename_i top' lower'
        refine ⟨top', lower', p.2, ps.map (·.2), by rw [hlv]; exact hls, by rw [hlv]; rfl, Or.inl ⟨?_, part, hp1, ?_⟩⟩
        · rintro ⟨rfl, hle⟩
          have : ps = [] := by cases b2; rfl
          have := hc1 (by rw [this]; rfl) p (by simp)
          omega
        · have hG := hgr (by
            rintro rfl
            have : ps = [] := by cases a2; rfl
            intro n hn'
            obtain ⟨l, hl', rfl⟩ := List.mem_map.1 hn'
            exact hc1 (by rw [this]; rfl) l hl')
          have hperm : List.Forall₂ List.Perm lower lower' := by
            clear hgr hG hls h2 hlv hc1
            induction a2 generalizing lower' with
            | nil => cases b2; exact List.Forall₂.nil
            | cons x1 _ ih =>
              cases b2 with
              | cons y1 y2 => exact List.Forall₂.cons (isLevel_perm x1 y1) (ih y2)
          have h3 := granted_self _ _ _ _ (granted_perm _ _ _ _ _ _ hperm (isLevel_perm a1 b1) hG)
          refine granted_mono ?_ _ _ _ _ h3
          intro x hx
          exact Finset.mem_inter.2 ⟨hp2 hx, mem_bigUnion.2 ⟨part, hpm, hx⟩⟩

/-! ## The groups -/

theorem group_parts {s : RS} {sec timeout now : Int} {ctx : Kao.Ctx} {db : DB} {ss0 : Kao.SlotSet} {W : List Kao.Job} {done : List Nat} {Q : List EJob} {js : List Kao.Job}
    {g : Grp} {x x' : DB × Kao.Ctx × List (String × Kao.SlotSet)} (hinv : Going s now ctx db ss0 W done Q x) (hsi : Simple db) (hg : Given [g] db)
    (h : group s sec timeout now js g x = some x') :
    ∃ sets st, (if g.names = ["besteffort"] then Kao.setPrev x.2.1 x.2.2 js sec now false true else some x.2.2) = some sets ∧
      Kao.schedule (hyOf s) sec (g.waiting.map (·.id)) ⟨x.2.1, sets, g.waiting⟩ = some st ∧ x' = (saveAssigns s x.1 (st.jobs.filterMap (toE x.1)), st.ctx, st.sets) := by
  unfold group at h
  cases hb : (if g.names = ["besteffort"] then Kao.setPrev x.2.1 x.2.2 js sec now false true else some x.2.2) with
  | none => rw [hb] at h; simp at h
  | some sets =>
    rw [hb] at h
    dsimp only at h
    cases hsch : Kao.schedule (hyOf s) sec (g.waiting.map (·.id)) ⟨x.2.1, sets, g.waiting⟩ with
    | none => rw [hsch] at h; simp at h
    | some st =>
      rw [hsch] at h
      dsimp only at h
      rw [groupResv_simple hsi _ _ (hg.noResv g (by simp)) hinv.jobs] at h
      simp only [Option.map_some, Option.some.injEq] at h
      exact ⟨sets, st, rfl, hsch, h.symm⟩

/-- The running best-effort jobs are placed elsewhere. -/
theorem group_prev {dec : Kao.Decode} {hy : Hy} {A : ProcSet} {t W now sec : Int} {ctx : Kao.Ctx} {sets0 sets : List (String × Kao.SlotSet)} {ss : Kao.SlotSet} {js : List Kao.Job}
    {g : Grp} (hp : Prev js) (hle : ∀ a ∈ js, a.startTime ≤ now) (hr : Kao.Roomy dec hy A t W "default" now sets0 ss)
    (hbe : g.names = ["besteffort"] → ∀ a ∈ js, a.hasType "besteffort" = true → ∀ w R, a.walltime = some w → a.resSet = some R → ∀ x ∈ A, x ∈ R → a.startTime + w < t)
    (h : (if g.names = ["besteffort"] then Kao.setPrev ctx sets0 js sec now false true else some sets0) = some sets) :
    ∃ s1, Kao.Roomy dec hy A t W "default" now sets s1 := by
  split at h
  · rename_i hn
    obtain ⟨s1, e1, e2⟩ := Kao.setPrev_sub hp.flat hr.ok.1 hp.order hp.placed hr.set_ h
    refine ⟨s1, e1, e2.setOk hr.ok, e2.begin_.trans hr.begin_, ?_, ?_⟩
    · refine hr.cache.shrink hr.ok.1 e2.cache (e2.begins (fun a ha => ?_)) e2.free
      rw [hr.begin_]
      exact hle a (List.mem_of_mem_filter ha)
    · intro x hx u u1 u2
      refine e2.back u x (hr.clear x hx u u1 u2) (fun a ha w R hw hR hxR => ?_)
      obtain ⟨ha1, ha2⟩ := List.mem_filter.1 ha
      right
      have := hbe hn a ha1 (by unfold Kao.kept at ha2; simpa using ha2) w R hw hR x hx hxR
      omega
  · simp only [Option.some.injEq] at h
    subst h
    exact ⟨ss, hr⟩

/-- The Gantt keeps the resources apart from the window for this job. -/
def KeptAway (s : RS) (A : ProcSet) (t W : Int) (x : DB) (w' : Kao.Job) : Prop :=
  ∀ m' ∈ w'.mlds, ∀ t', (m'.id, t') ∈ x.preds → ∀ k ∈ A, (m'.id, s.o2i k) ∈ x.gres → t + W ≤ t' ∨ t' + m'.walltime < t

/-- A job placed by the pass is in the Gantt. -/
theorem placed_gantt {s : RS} {sec now : Int} {ctx : Kao.Ctx} {db : DB} {ss0 : Kao.SlotSet} {WW : List Kao.Job} {done : List Nat} {Q : List EJob}
    {g : Grp} {x : DB × Kao.Ctx × List (String × Kao.SlotSet)} {sets : List (String × Kao.SlotSet)} {st : Kao.Sched} {s1 : Kao.SlotSet}
    (hinv : Going s now ctx db ss0 WW done Q x) (hcal : ctx.cal = none) (hg : Given [g] db) (h1 : sets.lookup "default" = some s1) (hok : Kao.SetOk s1)
    (hb : s1.begin_ = now) (hnow : 0 ≤ now)
    (hsch : Kao.schedule (hyOf s) sec (g.waiting.map (·.id)) ⟨x.2.1, sets, g.waiting⟩ = some st) :
    st.ctx = ctx ∧ (∀ w' ∈ g.waiting, ∃ a, st.job? w'.id = some a) ∧ ∀ w' ∈ g.waiting, ∀ a, st.job? w'.id = some a → (a.startTime = -1 ∧ a.walltime = w'.walltime) ∨ (now ≤ a.startTime ∧ ∃ m ∈ w'.mlds, ∃ R, a.moldableId = m.id ∧
      a.walltime = some m.walltime ∧ a.resSet = some R ∧ (m.id, a.startTime) ∈ (saveAssigns s x.1 (st.jobs.filterMap (toE x.1))).preds ∧
      ∀ k ∈ R, (m.id, s.o2i k) ∈ (saveAssigns s x.1 (st.jobs.filterMap (toE x.1))).gres) := by
  have hwn : (g.waiting.map (·.id)).Nodup := by have := hg.once; simpa using this
  have hinit : Kao.PassInv "default" s1 [] ⟨x.2.1, sets, g.waiting⟩ :=
    ⟨⟨s1, h1, hok, rfl, rfl, fun _ _ h => h, by simp⟩, by simp⟩
  have hfr : ∀ jid ∈ g.waiting.map (·.id), ∀ job, (⟨x.2.1, sets, g.waiting⟩ : Kao.Sched).job? jid = some job →
      Kao.Fresh "default" job ∧ job.setName = "default" := by
    intro jid _ job hj
    have hm : job ∈ g.waiting := List.mem_of_find?_eq_some hj
    obtain ⟨p1, p2, p3, p4, p5⟩ := hg.plain g (by simp) job hm
    refine ⟨⟨⟨p1, p2⟩, p3, ?_⟩, ?_⟩
    · rintro ⟨v, hv, _⟩
      rw [p4] at hv
      simp at hv
    · unfold Kao.Job.setName; rw [p5]; rfl
  obtain ⟨o1, o2, _, _, o5⟩ := Kao.schedule_outcome _ [] _ st hinit hwn (by simp) hfr (by show x.2.1.cal = none; rw [hinv.ctx_]; exact hcal) hsch
  dsimp only at o1 o2
  refine ⟨o1.trans hinv.ctx_, fun w' hw' => ?_, fun w' hw' a ha => ?_⟩
  · have hi : w'.id ∈ st.jobs.map (·.id) := by rw [o2]; exact List.mem_map.2 ⟨w', hw', rfl⟩
    obtain ⟨a, ha, e⟩ := List.mem_map.1 hi
    have hn : (st.jobs.map (·.id)).Nodup := by rw [o2]; exact hwn
    exact ⟨a, by rw [← e]; exact job?_of_mem hn ha⟩
  obtain ⟨w2, hw2, _, _, hun, hout⟩ := o5 w'.id (List.mem_map.2 ⟨w', hw', rfl⟩) a ha
  have hww : w2 = w' := by
    have h2 : (⟨x.2.1, sets, g.waiting⟩ : Kao.Sched).job? w'.id = some w' := job?_of_mem (st := ⟨x.2.1, sets, g.waiting⟩) hwn hw'
    rw [h2, Option.some.injEq] at hw2
    exact hw2.symm
  subst hww
  rcases hout with hout | ⟨m, hm, R, m1, m2, m3, m4, hans⟩
  · exact Or.inl ⟨hout, hun hout (by rw [hb]; exact hnow)⟩
  · right
    have hlo := hans.lo
    rw [hb] at hlo
    have ham : a ∈ st.jobs := List.mem_of_find?_eq_some ha
    have haid : a.id = w2.id := Kao.job?_id ha
    obtain ⟨j, hj, hjid, _⟩ := hg.row g (by simp) w2 hw'
    obtain ⟨e, he⟩ : ∃ e, toE x.1 a = some e := by
      unfold toE
      cases hf : x.1.jobs.find? (fun l => l.id == a.id) with
      | none =>
        rw [List.find?_eq_none] at hf
        exact absurd (by simp [hjid, haid]) (hf j (by rw [hinv.jobs]; exact hj))
      | some l => exact ⟨_, rfl⟩
    obtain ⟨t1, t2, t3, t4, _⟩ := toE_spec he
    have heN : e ∈ (st.jobs.filterMap (toE x.1)).filter (fun e => decide (-1 < e.start)) :=
      List.mem_filter.2 ⟨List.mem_filterMap.2 ⟨a, ham, he⟩, by rw [decide_eq_true_eq, t3]; omega⟩
    have hmid : e.mid = m.id := by rw [t2, m1]; rfl
    refine ⟨hlo, m, hm, R, m1, m2, m4, ?_, fun k hk => ?_⟩
    · show _ ∈ x.1.preds ++ _
      exact List.mem_append_right _ (List.mem_map.2 ⟨e, heN, by rw [hmid, t3]⟩)
    · show _ ∈ x.1.gres ++ _
      exact List.mem_append_right _ (List.mem_flatMap.2 ⟨e, heN, List.mem_map.2 ⟨k, by rw [t4, m4, Option.getD_some, mem_procList]; exact hk, by rw [hmid]⟩⟩)

/-- What the pass needs to know of a waiting job of a group. -/
theorem searchable_of {dec : Kao.Decode} {hy : Hy} {g : Grp} {db : DB} (hg : Given [g] db) {w : Kao.Job} (hw : w ∈ g.waiting) (hk : Kao.KeyOk dec w)
    (ho : ∀ m ∈ w.mlds, ∀ gr ∈ m.groups, GroupOk hy gr) : Kao.Searchable dec hy "default" w := by
  obtain ⟨p1, p2, p3, p4, p5⟩ := hg.plain g (by simp) w hw
  refine ⟨⟨⟨p1, p2⟩, p3, ?_⟩, ?_, hk, ho⟩
  · rintro ⟨v, hv, _⟩
    rw [p4] at hv
    simp at hv
  · unfold Kao.Job.setName; rw [p5]; rfl

theorem apart_of {s : RS} {A : ProcSet} {t W : Int} {x : DB} {w' : Kao.Job} {a : Kao.Job} (haway : KeptAway s A t W x w')
    (ha : a.startTime = -1 ∨ (∃ m ∈ w'.mlds, ∃ R, a.walltime = some m.walltime ∧ a.resSet = some R ∧ (m.id, a.startTime) ∈ x.preds ∧ ∀ k ∈ R, (m.id, s.o2i k) ∈ x.gres)) :
    Kao.Apart A t W a := by
  rcases ha with h | ⟨m, hm, R, h1, h2, h3, h4⟩
  · exact Or.inl h
  · right
    intro w R' hw hR x hx hxR
    rw [h1, Option.some.injEq] at hw
    rw [h2, Option.some.injEq] at hR
    subst hw hR
    exact haway m hm _ h3 x hx (h4 x hxR)

theorem group_roomy {dec : Kao.Decode} {s : RS} {A : ProcSet} {t W sec timeout now : Int} {ctx : Kao.Ctx} {db : DB} {ss0 ss : Kao.SlotSet} {WW : List Kao.Job} {done : List Nat}
    {Q : List EJob} {js : List Kao.Job} {g : Grp} {x x' : DB × Kao.Ctx × List (String × Kao.SlotSet)} (hinv : Going s now ctx db ss0 WW done Q x) (hsi : Simple db)
    (hcal : ctx.cal = none) (hnow : 0 ≤ now) (hg : Given [g] db) (hp : Prev js) (hle : ∀ a ∈ js, a.startTime ≤ now)
    (hbe : g.names = ["besteffort"] → ∀ a ∈ js, a.hasType "besteffort" = true → ∀ w R, a.walltime = some w → a.resSet = some R → ∀ x ∈ A, x ∈ R → a.startTime + w < t)
    (hk : ∀ w ∈ g.waiting, Kao.KeyOk dec w ∧ ∀ m ∈ w.mlds, ∀ gr ∈ m.groups, GroupOk (hyOf s) gr)
    (hr : Kao.Roomy dec (hyOf s) A t W "default" now x.2.2 ss) (h : group s sec timeout now js g x = some x') (haway : ∀ w' ∈ g.waiting, KeptAway s A t W x'.1 w') :
    ∃ ss', Kao.Roomy dec (hyOf s) A t W "default" now x'.2.2 ss' := by
  obtain ⟨sets, st, h1, h2, rfl⟩ := group_parts hinv hsi hg h
  obtain ⟨s1, hr1⟩ := group_prev hp hle hr hbe h1
  have hwn : (g.waiting.map (·.id)).Nodup := by have := hg.once; simpa using this
  obtain ⟨_, hplex, hpl⟩ := placed_gantt hinv hcal hg hr1.set_ hr1.ok hr1.begin_ hnow h2
  obtain ⟨_, ss', hr'⟩ := Kao.schedule_roomy hnow (g.waiting.map (·.id)) _ st s1 hr1 (by show x.2.1.cal = none; rw [hinv.ctx_]; exact hcal) hwn
    (fun i _ job hj => by
      have hm : job ∈ g.waiting := List.mem_of_find?_eq_some hj
      exact searchable_of hg hm (hk job hm).1 (hk job hm).2)
    (fun i hi a ha => by
      obtain ⟨w', hw', rfl⟩ := List.mem_map.1 hi
      refine apart_of (haway w' hw') ?_
      rcases hpl w' hw' a ha with e | ⟨_, m, hm, R, _, m2, m3, m4, m5⟩
      · exact Or.inl e.1
      · exact Or.inr ⟨m, hm, R, m2, m3, m4, m5⟩) h2
  exact ⟨ss', hr'⟩

theorem group_places {dec : Kao.Decode} {s : RS} {A : ProcSet} {t W sec timeout now : Int} {ctx : Kao.Ctx} {db : DB} {ss0 ss : Kao.SlotSet} {WW : List Kao.Job} {done : List Nat}
    {Q : List EJob} {js : List Kao.Job} {g : Grp} {x x' : DB × Kao.Ctx × List (String × Kao.SlotSet)} (hinv : Going s now ctx db ss0 WW done Q x) (hsi : Simple db)
    (hcal : ctx.cal = none) (hnow : 0 ≤ now) (hg : Given [g] db) (hp : Prev js) (hle : ∀ a ∈ js, a.startTime ≤ now)
    (hbe : g.names = ["besteffort"] → ∀ a ∈ js, a.hasType "besteffort" = true → ∀ w R, a.walltime = some w → a.resSet = some R → ∀ x ∈ A, x ∈ R → a.startTime + w < t)
    (hk : ∀ w ∈ g.waiting, Kao.KeyOk dec w ∧ ∀ m ∈ w.mlds, ∀ gr ∈ m.groups, GroupOk (hyOf s) gr)
    (hr : Kao.Roomy dec (hyOf s) A t W "default" now x.2.2 ss) (h : group s sec timeout now js g x = some x')
    {a b : List Kao.Job} {w : Kao.Job} (hwt : g.waiting = a ++ w :: b) (haway : ∀ w' ∈ a, KeptAway s A t W x'.1 w')
    (ht : now ≤ t) (hd : Clears a x'.1 t w) (hq : Kao.NoQuotas ctx w) {m : Kao.Mld} (hm : m ∈ w.mlds) (hW : m.walltime = W) (hpos : 0 < W) (hsat : Satisfiable (hyOf s) m.groups A) :
    ∃ m' ∈ w.mlds, ∃ t', (m'.id, t') ∈ x'.1.preds ∧ now ≤ t' ∧ t' + m'.walltime ≤ t + W := by
  obtain ⟨sets, st, h1, h2, rfl⟩ := group_parts hinv hsi hg h
  obtain ⟨s1, hr1⟩ := group_prev hp hle hr hbe h1
  have hwn : (g.waiting.map (·.id)).Nodup := by have := hg.once; simpa using this
  obtain ⟨_, hplex, hpl⟩ := placed_gantt hinv hcal hg hr1.set_ hr1.ok hr1.begin_ hnow h2
  have hwg : w ∈ g.waiting := by rw [hwt]; simp
  rw [hwt, List.map_append, List.map_cons, Kao.schedule_append] at h2
  rw [hwt, List.map_append, List.map_cons, List.nodup_append] at hwn
  obtain ⟨n1, n2, n3⟩ := hwn
  have n4 : w.id ∉ b.map (·.id) ∧ (b.map (·.id)).Nodup := List.nodup_cons.1 n2
  rw [← hwt] at h2
  cases hs1 : Kao.schedule (hyOf s) sec (a.map (·.id)) ⟨x.2.1, sets, g.waiting⟩ with
  | none => rw [hs1] at h2; simp at h2
  | some st1 =>
    rw [hs1, Option.bind_some] at h2
    unfold Kao.schedule at h2
    cases hs2 : Kao.scheduleOne (hyOf s) sec st1 w.id with
    | none => rw [hs2] at h2; simp at h2
    | some st2 =>
      rw [hs2] at h2
      dsimp only at h2
      have hkeep : ∀ i, i ∉ b.map (·.id) → st.job? i = st2.job? i := fun i hi => Kao.schedule_job? _ _ _ i hi h2
      have hnb : ∀ w' ∈ a, w'.id ≠ w.id ∧ w'.id ∉ b.map (·.id) := by
        intro w' hw'
        have hi : w'.id ∈ a.map (·.id) := List.mem_map.2 ⟨w', hw', rfl⟩
        exact ⟨n3 _ hi _ (by simp), fun hb => n3 _ hi _ (List.mem_cons_of_mem _ hb) rfl⟩
      obtain ⟨hc1, ss1, hr2⟩ := Kao.schedule_roomy hnow (a.map (·.id)) _ st1 s1 hr1 (by show x.2.1.cal = none; rw [hinv.ctx_]; exact hcal) n1
        (fun i _ job hj => by
          have hm : job ∈ g.waiting := List.mem_of_find?_eq_some hj
          exact searchable_of hg hm (hk job hm).1 (hk job hm).2)
        (fun i hi a' ha' => by
          obtain ⟨w', hw', rfl⟩ := List.mem_map.1 hi
          obtain ⟨e1, e2⟩ := hnb w' hw'
          refine apart_of (haway w' hw') ?_
          have hst : st.job? w'.id = some a' := by
            rw [hkeep _ e2, Kao.scheduleOne_job? hs2 e1]
            exact ha'
          rcases hpl w' (by rw [hwt]; simp [hw']) a' hst with e | ⟨_, m, hm, R, _, m2, m3, m4, m5⟩
          · exact Or.inl e.1
          · exact Or.inr ⟨m, hm, R, m2, m3, m4, m5⟩) hs1
      have hjw : st1.job? w.id = some w := by
        rw [Kao.schedule_job? _ _ _ w.id (fun hi => n3 _ hi _ (by simp) rfl) hs1]
        exact job?_of_mem (st := ⟨x.2.1, sets, g.waiting⟩) (by have := hg.once; simpa using this) hwg
      have hclr := Kao.depsLoop_clears (st := st1) t w.deps (-1) (by omega) (fun d hdm => by
        rcases hd d hdm with e | e | ⟨e, w', hw', e1, e2, e3⟩
        · exact Or.inl e
        · exact Or.inr (Or.inl e)
        · refine Or.inr (Or.inr ⟨e, ?_⟩)
          have hw'g : w' ∈ g.waiting := by rw [hwt]; simp [hw']
          obtain ⟨jd, hjd⟩ := hplex w' hw'g
          obtain ⟨f1, f2⟩ := hnb w' hw'
          have hjd1 : st1.job? w'.id = some jd := by rw [← Kao.scheduleOne_job? hs2 f1, ← hkeep _ f2]; exact hjd
          refine ⟨jd, by rw [← e1]; exact hjd1, ?_⟩
          unfold Kao.Job.stop
          rcases hpl w' hw'g jd hjd with ⟨u1, u2⟩ | ⟨_, m, hm, R, _, u2, _, u4, _⟩
          · rw [u2, e2, u1]; dsimp only; omega
          · rw [u2]; exact e3 m hm _ u4)
      obtain ⟨a', ha', m', hm', k1, k2, k3, k4, R, k5, k6⟩ := Kao.scheduleOne_places hr2 hjw (searchable_of hg hwg (hk w hwg).1 (hk w hwg).2) hclr
        (by rw [hc1]; show Kao.NoQuotas x.2.1 w; rw [hinv.ctx_]; exact hq) hm hW hpos hsat hs2
      rcases hpl w hwg a' (by rw [hkeep _ n4.1]; exact ha') with e | ⟨_, m2, hm2, R2, l1, l2, l3, l4, _⟩
      · omega
      · have e1 : m2.id = m'.id := by rw [l1] at k1; exact_mod_cast k1
        have e2 : m2.walltime = m'.walltime := by rw [l2, Option.some.injEq] at k2; exact k2
        exact ⟨m2, hm2, a'.startTime, l4, k3, by rw [e2]; exact k4⟩

theorem group_mono {s : RS} {sec timeout now : Int} {ctx : Kao.Ctx} {db : DB} {ss0 : Kao.SlotSet} {W : List Kao.Job} {done : List Nat} {Q : List EJob} {js : List Kao.Job}
    {g : Grp} {x x' : DB × Kao.Ctx × List (String × Kao.SlotSet)} (hinv : Going s now ctx db ss0 W done Q x) (hsi : Simple db) (hg : Given [g] db)
    (h : group s sec timeout now js g x = some x') : (∀ p ∈ x.1.preds, p ∈ x'.1.preds) ∧ ∀ p ∈ x.1.gres, p ∈ x'.1.gres := by
  obtain ⟨sets, st, _, _, rfl⟩ := group_parts hinv hsi hg h
  exact ⟨fun p hp => List.mem_append_left _ hp, fun p hp => List.mem_append_left _ hp⟩

theorem keptAway_mono {s : RS} {A : ProcSet} {t W : Int} {x x' : DB} {w' : Kao.Job} (h1 : ∀ p ∈ x.preds, p ∈ x'.preds) (h2 : ∀ p ∈ x.gres, p ∈ x'.gres)
    (h : KeptAway s A t W x' w') : KeptAway s A t W x w' :=
  fun m hm t' ht k hk hg => h m hm t' (h1 _ ht) k hk (h2 _ hg)

theorem clears_mono {a : List Kao.Job} {t : Int} {x x' : DB} {w : Kao.Job} (h1 : ∀ p ∈ x.preds, p ∈ x'.preds) (h : Clears a x' t w) : Clears a x t w := by
  intro d hd
  rcases h d hd with e | e | ⟨e, w', hw', e1, e2, e3⟩
  · exact Or.inl e
  · exact Or.inr (Or.inl e)
  · exact Or.inr (Or.inr ⟨e, w', hw', e1, e2, fun m hm t' ht => e3 m hm t' (h1 _ ht)⟩)

theorem settled_clears {a : List Kao.Job} {t : Int} {x : DB} {w : Kao.Job} (h : Settled w) : Clears a x t w :=
  fun d hd => (h d hd).elim Or.inl (fun e => Or.inr (Or.inl e))

/-- What is fixed during the groups. -/
structure Still (dec : Kao.Decode) (s : RS) (A : ProcSet) (t : Int) (now : Int) (ctx : Kao.Ctx) (db : DB) (ss0 : Kao.SlotSet) (js : List Kao.Job) : Prop where
  beg : ss0.begin_ = now
  simple : Simple db
  cal : ctx.cal = none
  date : 0 ≤ now
  prev : Prev js
  le : ∀ a ∈ js, a.startTime ≤ now

/-- The best-effort jobs are elsewhere. -/
def Elsewhere (A : ProcSet) (t : Int) (js : List Kao.Job) : Prop :=
  ∀ a ∈ js, a.hasType "besteffort" = true → ∀ w R, a.walltime = some w → a.resSet = some R → ∀ x ∈ A, x ∈ R → a.startTime + w < t

theorem groups_mono {dec : Kao.Decode} {s : RS} {A : ProcSet} {t sec timeout now : Int} {ctx : Kao.Ctx} {db : DB} {ss0 : Kao.SlotSet} {W : List Kao.Job} {js : List Kao.Job}
    (hs : Still dec s A t now ctx db ss0 js) : ∀ (gs : List Grp) (done : List Nat) (Q : List EJob) (x x' : DB × Kao.Ctx × List (String × Kao.SlotSet)),
    Going s now ctx db ss0 W done Q x → Given gs db → (∀ g ∈ gs, ∀ w ∈ g.waiting, w ∈ W) → (∀ g ∈ gs, ∀ w ∈ g.waiting, w.id ∉ done) → groups s sec timeout now js gs x = some x' →
    (∀ p ∈ x.1.preds, p ∈ x'.1.preds) ∧ ∀ p ∈ x.1.gres, p ∈ x'.1.gres
  | [], done, Q, x, x', hinv, _, _, _, h => by
    simp only [groups, Option.some.injEq] at h
    subst h
    exact ⟨fun _ h => h, fun _ h => h⟩
  | g :: gs, done, Q, x, x', hinv, hg, hW, hnew, h => by
    unfold groups at h
    cases h1 : group s sec timeout now js g x with
    | none => rw [h1] at h; simp at h
    | some x1 =>
      rw [h1, Option.bind_some] at h
      obtain ⟨g1, g2, g3⟩ := given_cons hg
      obtain ⟨Q1, i1⟩ := group_step hs.beg hinv hs.prev hs.cal hs.simple g1 (hW g (by simp)) (hnew g (by simp)) h1
      obtain ⟨m1, m2⟩ := group_mono hinv hs.simple g1 h1
      obtain ⟨m3, m4⟩ := groups_mono hs gs _ Q1 x1 x' i1 g2 (fun g' hg' => hW g' (List.mem_cons_of_mem _ hg')) (by
        intro g' hg' w' hw'
        rw [List.mem_append, not_or]
        refine ⟨?_, hnew g' (List.mem_cons_of_mem _ hg') w' hw'⟩
        intro hm
        obtain ⟨w, hw, e⟩ := List.mem_map.1 hm
        exact g3 g' hg' w' hw' w hw e) h
      exact ⟨fun p hp => m3 p (m1 p hp), fun p hp => m4 p (m2 p hp)⟩

theorem groups_live {dec : Kao.Decode} {s : RS} {A : ProcSet} {t W sec timeout now : Int} {ctx : Kao.Ctx} {db : DB} {ss0 : Kao.SlotSet} {WW : List Kao.Job} {js : List Kao.Job}
    {g : Grp} {post : List Grp} {a b : List Kao.Job} {w : Kao.Job} {m : Kao.Mld} (hs : Still dec s A t now ctx db ss0 js)
    (hwt : g.waiting = a ++ w :: b) (ht : now ≤ t) (hq : Kao.NoQuotas ctx w) (hm : m ∈ w.mlds) (hW : m.walltime = W) (hpos : 0 < W)
    (hsat : Satisfiable (hyOf s) m.groups A) : ∀ (pre : List Grp) (done : List Nat) (Q : List EJob) (x x' : DB × Kao.Ctx × List (String × Kao.SlotSet)) (ss : Kao.SlotSet),
    Going s now ctx db ss0 WW done Q x → Given (pre ++ g :: post) db → (∀ g' ∈ pre ++ g :: post, ∀ w' ∈ g'.waiting, w' ∈ WW) →
    (∀ g' ∈ pre ++ g :: post, ∀ w' ∈ g'.waiting, w'.id ∉ done) →
    (∀ g' ∈ pre ++ [g], g'.names = ["besteffort"] → Elsewhere A t js) →
    (∀ g' ∈ pre ++ g :: post, ∀ w' ∈ g'.waiting, Kao.KeyOk dec w' ∧ ∀ m' ∈ w'.mlds, ∀ gr ∈ m'.groups, GroupOk (hyOf s) gr) →
    Kao.Roomy dec (hyOf s) A t W "default" now x.2.2 ss → groups s sec timeout now js (pre ++ g :: post) x = some x' →
    (∀ g' ∈ pre, ∀ w' ∈ g'.waiting, KeptAway s A t W x'.1 w') → (∀ w' ∈ a, KeptAway s A t W x'.1 w') → Clears a x'.1 t w →
    ∃ m' ∈ w.mlds, ∃ t', (m'.id, t') ∈ x'.1.preds ∧ now ≤ t' ∧ t' + m'.walltime ≤ t + W
  | [], done, Q, x, x', ss, hinv, hg, hWW, hnew, hbe, hk, hr, h, _, haway, hd => by
    rw [List.nil_append] at hg hWW hnew hk h
    unfold groups at h
    cases h1 : group s sec timeout now js g x with
    | none => rw [h1] at h; simp at h
    | some x1 =>
      rw [h1, Option.bind_some] at h
      obtain ⟨g1, g2, g3⟩ := given_cons hg
      obtain ⟨Q1, i1⟩ := group_step hs.beg hinv hs.prev hs.cal hs.simple g1 (hWW g (by simp)) (hnew g (by simp)) h1
      obtain ⟨m3, m4⟩ := groups_mono hs post _ Q1 x1 x' i1 g2 (fun g' hg' => hWW g' (List.mem_cons_of_mem _ hg')) (by
        intro g' hg' w' hw'
        rw [List.mem_append, not_or]
        refine ⟨?_, hnew g' (List.mem_cons_of_mem _ hg') w' hw'⟩
        intro hm
        obtain ⟨w, hw, e⟩ := List.mem_map.1 hm
        exact g3 g' hg' w' hw' w hw e) h
      obtain ⟨m', hm', t', k1, k2, k3⟩ := group_places hinv hs.simple hs.cal hs.date g1 hs.prev hs.le (hbe g (by simp)) (hk g (by simp)) hr h1 hwt
        (fun w' hw' => keptAway_mono m3 m4 (haway w' hw')) ht (clears_mono m3 hd) hq hm hW hpos hsat
      exact ⟨m', hm', t', m3 _ k1, k2, k3⟩
  | g0 :: pre, done, Q, x, x', ss, hinv, hg, hWW, hnew, hbe, hk, hr, h, hpre, haway, hd => by
    rw [List.cons_append] at hg hWW hnew hk h
    unfold groups at h
    cases h1 : group s sec timeout now js g0 x with
    | none => rw [h1] at h; simp at h
    | some x1 =>
      rw [h1, Option.bind_some] at h
      obtain ⟨g1, g2, g3⟩ := given_cons hg
      obtain ⟨Q1, i1⟩ := group_step hs.beg hinv hs.prev hs.cal hs.simple g1 (hWW g0 (by simp)) (hnew g0 (by simp)) h1
      have hnew' : ∀ g' ∈ pre ++ g :: post, ∀ w' ∈ g'.waiting, w'.id ∉ g0.waiting.map (·.id) ++ done := by
        intro g' hg' w' hw'
        rw [List.mem_append, not_or]
        refine ⟨?_, hnew g' (List.mem_cons_of_mem _ hg') w' hw'⟩
        intro hm
        obtain ⟨w, hw, e⟩ := List.mem_map.1 hm
        exact g3 g' hg' w' hw' w hw e
      obtain ⟨m3, m4⟩ := groups_mono hs (pre ++ g :: post) _ Q1 x1 x' i1 g2 (fun g' hg' => hWW g' (List.mem_cons_of_mem _ hg')) hnew' h
      obtain ⟨ss1, hr1⟩ := group_roomy hinv hs.simple hs.cal hs.date g1 hs.prev hs.le (hbe g0 (by simp)) (hk g0 (by simp)) hr h1
        (fun w' hw' => keptAway_mono m3 m4 (hpre g0 (by simp) w' hw'))
      exact groups_live hs hwt ht hq hm hW hpos hsat pre _ Q1 x1 x' ss1 i1 g2 (fun g' hg' => hWW g' (List.mem_cons_of_mem _ hg')) hnew'
        (fun g' hg' => hbe g' (by rw [List.cons_append]; exact List.mem_cons_of_mem _ hg')) (fun g' hg' => hk g' (List.mem_cons_of_mem _ hg')) hr1 h
        (fun g' hg' => hpre g' (List.mem_cons_of_mem _ hg')) haway hd

theorem launchAll_preds (now : Int) : ∀ (L : List EJob) (db : DB), (∀ e ∈ L, e.job.reservation ≠ "Scheduled") → (L.foldl (launchOne now) db).preds = db.preds
  | [], _, _ => rfl
  | e :: L, db, h => by
    rw [List.foldl_cons, launchAll_preds now L _ (fun e he => h e (List.mem_cons_of_mem _ he))]
    unfold launchOne
    rw [if_neg (fun hc => h e (by simp) hc.1)]
    rfl

theorem killAll_gantt : ∀ (l : List Nat) (db : DB), (l.foldl killJob db).preds = db.preds ∧ (l.foldl killJob db).gres = db.gres
  | [], _ => ⟨rfl, rfl⟩
  | k :: l, db => by
    rw [List.foldl_cons]
    obtain ⟨h1, h2⟩ := killAll_gantt l (killJob db k)
    exact ⟨h1, h2⟩

/-- The Gantt is that of the end of the groups. -/
theorem final_gantt {cf : Conf} {s : RS} {ord : List Row → List Row} {now : Int} {db db2 db' : DB} {code : Int} (hsi : Simple db) (hj : db2.jobs = db.jobs)
    (hrows : ∀ r, r ∈ dueRows cf ord now db2 ↔ r ∈ join db2 ∧ r.start ≤ now + cf.kill ∧ r.job.state = "Waiting")
    (hc : (db' = ((extract s cf.sec (dueRows cf ord now db2)).filter (ready s now)).foldl (launchOne now) db2) ∨ (code = 2 ∧ ∃ k ks, db' = (k :: ks).foldl killJob db2)) :
    db'.preds = db2.preds ∧ db'.gres = db2.gres := by
  rcases hc with rfl | ⟨_, k, ks, rfl⟩
  · refine ⟨launchAll_preds _ _ _ (fun e he => ?_), launchAll_gres _ _ _⟩
    obtain ⟨r0, hr0, e1, _⟩ := extract_sound s cf.sec _ (fun r hr => by rw [((hrows r).1 hr).2.2]; decide) e (List.mem_filter.1 he).1
    obtain ⟨j1, _⟩ := (hrows r0).1 hr0
    have := ((mem_join _ r0).1 j1).2.2.1
    rw [hj] at this
    rw [e1]
    exact (hsi _ this).1
  · exact killAll_gantt _ _

/-- **C97** (in part): in a regular round, a waiting job without quota that could be answered by the resources `R` at the date `t` is placed so that it ends no
later than it would there, whatever the jobs that come after it: `R` is held by no running job at that date (the best-effort jobs do not count before their queue is treated), the jobs
before it in the order of the scheduling are placed elsewhere, and its dependencies are over or placed so that they end by `t`. -/
theorem round_earliest_partial (cf : Conf) (ctx : Kao.Ctx) (susp labels : List String) (rs : List Res) (s : RS) (ord : List Row → List Row) (pre post : List Grp) (g : Grp)
    (now : Int) (db db' : DB) (code : Int) (hids : (rs.map Res.id).Nodup) (hbuild : build susp labels rs = some s) (hord : ∀ l, (ord l).Perm l)
    (hr : Regular cf ctx s (pre ++ g :: post) now db) (h : round cf ctx s ord (pre ++ g :: post) now db = some (db', code))
    (hheld : HeldUsable rs db) (hread : ∀ g' ∈ pre ++ g :: post, ∀ w' ∈ g'.waiting, ∀ m' ∈ w'.mlds, Readable labels m'.groups)
    (hkey : SameKey ((pre ++ g :: post).flatMap (·.waiting))) (a b : List Kao.Job) (w : Kao.Job) (hwt : g.waiting = a ++ w :: b)
    (hq : Kao.NoQuotas ctx w) (m : Kao.Mld) (hm : m ∈ w.mlds) (hpos : 0 < m.walltime) (hne : m.groups ≠ []) (hcount : Counts m.groups)
    (R : ProcSet) (hans : Answers rs m.groups R) (t : Int) (ht : now ≤ t) (hdep : Clears a db' t w)
    (hroom : ∀ k ∈ R, ∃ row, rs[k]? = some row ∧ row.usable = true ∧ t + m.walltime ≤ row.upto ∧ ∀ j ∈ db.jobs, Occupies j → Holds db j row.id →
      (BestEffort j ∧ ∀ g' ∈ pre ++ [g], g'.names ≠ ["besteffort"]) ∨ EndsBefore cf.sec db j t)
    (hpre : ∀ g' ∈ pre, ∀ w' ∈ g'.waiting, NotOn rs R t m.walltime db' w') (hbefore : ∀ w' ∈ a, NotOn rs R t m.walltime db' w') :
    ∃ m' ∈ w.mlds, ∃ t', (m'.id, t') ∈ db'.preds ∧ now ≤ t' ∧ t' + m'.walltime ≤ t + m.walltime := by
  obtain ⟨db2, c2, sets, sets2, sched, js, ss0, done, Q, hb, ⟨hp, hwho, hgr⟩, q, hrows, hcase⟩ := round_facts hord hr h
  obtain ⟨hs, hton, hsi, hg, hn, hcal, hdate⟩ := hr
  have hinv := build_inv hids hbuild
  obtain ⟨hpreds, hgres⟩ := final_gantt (code := code) (db' := db') hsi q.jobs hrows (hcase.imp (fun h => h.2.2.1) id)
  -- the cache
  classical
  obtain ⟨dec, hdec⟩ : ∃ dec : Kao.Decode, ∀ g' ∈ pre ++ g :: post, ∀ w' ∈ g'.waiting, Kao.KeyOk dec w' := by
    refine ⟨fun k => if h : ∃ x : Kao.Job × Kao.Mld, x.1 ∈ (pre ++ g :: post).flatMap (·.waiting) ∧ x.2 ∈ x.1.mlds ∧ x.1.keyCache.lookup x.2.id = some k
      then (h.choose.2.walltime, h.choose.2.groups) else (1, []), ?_⟩
    intro g' hg' w' hw' m' hm' k hk
    have hex : ∃ x : Kao.Job × Kao.Mld, x.1 ∈ (pre ++ g :: post).flatMap (·.waiting) ∧ x.2 ∈ x.1.mlds ∧ x.1.keyCache.lookup x.2.id = some k :=
      ⟨(w', m'), List.mem_flatMap.2 ⟨g', hg', hw'⟩, hm', hk⟩
    dsimp only
    rw [dif_pos hex]
    obtain ⟨c1, c2', c3⟩ := hex.choose_spec
    obtain ⟨e1, e2⟩ := hkey _ c1 w' (List.mem_flatMap.2 ⟨g', hg', hw'⟩) _ c2' m' hm' k c3 hk
    rw [e1, e2]
  -- the resources of the jobs of the Gantt
  have hnum : ∀ j ∈ db.jobs, Occupies j → ∀ i, Holds db j i → ∀ x, x = s.i2o (s.o2i (s.i2o i)) → ∀ row : Res, rs[x]? = some row → row.id = i := by
    intro j hj ho i hi x hx row hrow
    obtain ⟨row', hr1, hr2, hr3⟩ := hheld j hj ho i hi
    obtain ⟨k, hk⟩ := List.mem_iff_getElem?.1 hr1
    obtain ⟨n1, n2⟩ := hinv.num k row' hk hr2
    rw [hr3] at n1 n2
    rw [n1, n2, n1] at hx
    rw [hx, hk, Option.some.injEq] at hrow
    rw [← hrow, hr3]
  have hends : ∀ x ∈ R, ∀ ja ∈ js, ∀ wt S, ja.walltime = some wt → ja.resSet = some S → x ∈ S →
      (ja.hasType "besteffort" = true ∧ ∀ g' ∈ pre ++ [g], g'.names ≠ ["besteffort"]) ∨ ja.startTime + wt < t := by
    intro x hx ja hja wt S hwt' hS hxS
    obtain ⟨row, r1, r2, r3, r4⟩ := hroom x hx
    obtain ⟨j, hj, ho, hbe, hst, ⟨d, hd, d1, d2⟩, S', hS', hS2⟩ := hwho ja hja
    rw [hS, Option.some.injEq] at hS'
    subst hS'
    obtain ⟨i, hi, hxi⟩ := hS2 x hxS
    have hri := hnum j hj ho i hi x hxi row r1
    rcases r4 j hj ho (by rw [hri]; exact hi) with ⟨e1, e2⟩ | e
    · exact Or.inl ⟨hbe.2 e1, e2⟩
    · right
      have := e d hd d1
      rw [hwt', Option.some.injEq] at d2
      rw [hst, d2]
      exact this
  have hclear : Kao.Clear ss0 R t m.walltime := by
    intro x hx u u1 u2
    obtain ⟨row, r1, r2, r3, _⟩ := hroom x hx
    obtain ⟨gk1, gr, gall⟩ := hinv.upto
    have hupto : ∀ p ∈ s.upto, x ∈ p.2 → p.1 = row.upto := by
      intro p hp' hxp
      obtain ⟨row', r1', _, e⟩ := ((gr p.1 p.2 hp').2.2 x).1 hxp
      rw [r1, Option.some.injEq] at r1'
      rw [r1']
      exact e.symm
    have hmax : row.upto < Kao.maxTime := by
      obtain ⟨p, hp', pe⟩ := List.mem_map.1 (gall x row r1 r2)
      have := numbered_upto hn p hp'
      have pe' : p.1 = row.upto := pe
      omega
    refine hb.low u x ((hinv.roids.2 x).2 ⟨row, r1, r2, trivial⟩) (by omega) (by omega) (fun p hp' hxp => by rw [hupto p hp' hxp]; omega) ?_
    intro ja hja hnb wt S hwt' hS hxS
    rcases hends x hx ja hja wt S hwt' hS hxS with ⟨e, _⟩ | e
    · rw [hnb] at e; exact absurd e (by simp)
    · omega
  have hel : ∀ g' ∈ pre ++ [g], g'.names = ["besteffort"] → Elsewhere R t js := by
    intro g' hg' hnames ja hja _ wt S hwt' hS x hx hxS
    rcases hends x hx ja hja wt S hwt' hS hxS with ⟨_, e⟩ | e
    · exact absurd hnames (e g' hg')
    · exact e
  have hsat := answers_satisfiable hids hbuild hne (hread g (by simp) w (by rw [hwt]; simp) m hm) hcount hans
  have hus : ∃ r ∈ rs, r.usable = true := by
    have hRne : R.Nonempty := by
      obtain ⟨parts, hf, rfl⟩ := hans
      cases hgm : m.groups with
      | nil => exact absurd hgm hne
      | cons g0 gr0 =>
        rw [hgm] at hf
        cases hf with
        | cons hp1 _ =>
          obtain ⟨y, hy⟩ := Finset.nonempty_iff_ne_empty.2 hp1.1
          exact ⟨y, mem_bigUnion.2 ⟨_, by simp, hy⟩⟩
    obtain ⟨y, hy⟩ := hRne
    obtain ⟨row, r1, r2, _⟩ := hroom y hy
    exact ⟨row, List.mem_of_getElem? r1, r2⟩
  have haw : ∀ w' : Kao.Job, NotOn rs R t m.walltime db' w' → KeptAway s R t m.walltime db2 w' := by
    intro w' hw' m' hm' t' ht' k hk hgk
    obtain ⟨row, r1, r2, _⟩ := hroom k hk
    rw [(hinv.num k row r1 r2).2] at hgk
    exact hw' m' hm' t' (by rw [hpreds]; exact ht') k hk row r1 (by rw [hgres]; exact hgk)
  have hstill : Still dec s R t now ctx db ss0 js := ⟨hb.begin_, hsi, hcal, hdate.1, hp, fun ja hja => by
    obtain ⟨j, hj, ho, _, hst, _⟩ := hwho ja hja
    rw [hst]
    exact (hton j hj ho).2.1⟩
  have h0 : Going s now ctx db ss0 ((pre ++ g :: post).flatMap (·.waiting)) [] [] (started s db, ctx, sets) :=
    ⟨rfl, rfl, rfl, by simp, by simp, rfl, ⟨ss0, hb.set_, hb.ok, hb.begin_, fun _ _ h => h, by simp⟩, by simp, List.Pairwise.nil, by simp, by simp⟩
  have hroomy : Kao.Roomy dec (hyOf s) R t m.walltime "default" now sets ss0 := ⟨hb.set_, hb.ok, hb.begin_, Kao.cacheOk_nil _ _ hb.cache, hclear⟩
  rw [hpreds]
  exact groups_live hstill hwt ht hq hm rfl hpos hsat pre [] [] (started s db, ctx, sets) (db2, c2, sets2) ss0 h0 hg
    (fun g' hg' w' hw' => List.mem_flatMap.2 ⟨g', hg', hw'⟩) (by simp) hel
    (fun g' hg' w' hw' => ⟨hdec g' hg' w' hw', fun m' hm' gr hgr => groupOk_of hids hbuild (Or.inl hus) (hread g' hg' w' hw' m' hm') gr hgr⟩) hroomy hgr
    (fun g' hg' w' hw' => haw w' (hpre g' hg' w' hw')) (fun w' hw' => haw w' (hbefore w' hw')) (clears_mono (by rw [hpreds]; exact fun _ h => h) hdep)

/-- A waiting job whose predicted date has come is launched, if no best-effort job is killed and no machine is Absent. -/
theorem due_launched {cf : Conf} {ctx : Kao.Ctx} {susp labels : List String} {rs : List Res} {s : RS} {ord : List Row → List Row} {gs : List Grp} {now : Int} {db db' : DB}
    (hids : (rs.map Res.id).Nodup) (hbuild : build susp labels rs = some s) (hord : ∀ l, (ord l).Perm l) (hr : Regular cf ctx s gs now db)
    (h : round cf ctx s ord gs now db = some (db', 0)) (hkill : 0 ≤ cf.kill) (halive : ∀ row ∈ rs, row.state ≠ "Absent") {g : Grp} (hgm : g ∈ gs) {w : Kao.Job}
    (hwg : w ∈ g.waiting) {m' : Kao.Mld} (hm' : m' ∈ w.mlds) {t' : Int} (hp' : (m'.id, t') ∈ db'.preds) (t1 : t' ≤ now) :
    ∃ j ∈ db'.jobs, j.id = w.id ∧ j.state = "toLaunch" ∧ j.start = now := by
  obtain ⟨db2, c2, sets, sets2, sched, js, ss0, done, Q, hb, _, q, hrows, hcase⟩ := round_facts hord hr h
  obtain ⟨hs, hton, hsi, hg, hn, hcal, hdate⟩ := hr
  have hinv := build_inv hids hbuild
  obtain ⟨hpreds, _⟩ := final_gantt (code := 0) (db' := db') hsi q.jobs hrows (hcase.imp (fun h => h.2.2.1) id)
  obtain ⟨jw, hjw, jid, jst⟩ := hg.row g hgm w hwg
  obtain ⟨d, hd, d1, d2⟩ := hg.molds g hgm w hwg m' hm'
  have hnm := waiting_mold hs jw hjw jst
  -- the only placement of the job
  have hq1 : ∀ mid t, (mid, t) ∈ db2.preds → ∀ d ∈ db.molds, d.id = mid → d.job = w.id → ∃ q0 ∈ Q, q0.mid = mid ∧ q0.start = t ∧ q0.job.id = w.id := by
    intro mid t hmt d hd e1 e2
    have qpreds : db2.preds = (started s db).preds ++ Q.map (fun e => (e.mid, e.start)) := q.preds
    rw [qpreds] at hmt
    rcases List.mem_append.1 hmt with p1 | p1
    · obtain ⟨j', hj', ho, ee⟩ := started_preds p1
      simp only [Prod.mk.injEq] at ee
      exact absurd (e1.trans ee.1) (hnm d hd (by rw [e2, jid]) j' hj' ho)
    · obtain ⟨q0, hq0, ee⟩ := List.mem_map.1 p1
      simp only [Prod.mk.injEq] at ee
      refine ⟨q0, hq0, ee.1, ee.2, ?_⟩
      obtain ⟨_, _, m2, hm2, f1, f2⟩ := q.free q0 hq0
      have : m2 = d := nodup_inj hs.molds hm2 hd (by rw [f1, ee.1, e1])
      rw [← f2, this, e2]
  rw [hpreds] at hp'
  obtain ⟨q0, hq0, u1, u2, u3⟩ := hq1 _ _ hp' d hd d1 d2
  have hq0now : q0.start = now := by
    have := (q.free q0 hq0).1
    omega
  obtain ⟨w2, _, _, m2, _, _, _, S, hS, hans2⟩ := q.ans q0 hq0
  obtain ⟨y, hy⟩ := Finset.nonempty_iff_ne_empty.2 hans2.ne
  have qgres : db2.gres = (started s db).gres ++ Q.flatMap (fun e => e.res.map (fun k => (e.mid, s.o2i k))) := q.gres
  have qjobs : db2.jobs = db.jobs := q.jobs
  have qmolds : db2.molds = db.molds := q.molds
  have hrow : (⟨jw, m'.id, t', d.walltime, s.o2i y⟩ : Row) ∈ dueRows cf ord now db2 := by
    rw [hrows]
    refine ⟨?_, by show t' ≤ now + cf.kill; omega, jst⟩
    rw [mem_join]
    refine ⟨hp', ⟨d, by rw [qmolds]; exact hd, d1, by rw [d2, jid], rfl⟩, by rw [qjobs]; exact hjw, ?_⟩
    rw [qgres]
    exact List.mem_append_right _ (List.mem_flatMap.2 ⟨q0, hq0, List.mem_map.2 ⟨y, (hS y).2 hy, by rw [u1]⟩⟩)
  have hws : ∀ r ∈ dueRows cf ord now db2, r.job.state ≠ "Suspended" := fun r hr => by rw [((hrows r).1 hr).2.2]; decide
  obtain ⟨e, he, heid⟩ := extract_ids s cf.sec _ hws _ hrow
  have heid' : e.job.id = jw.id := heid
  have hestart : e.start = now := by
    obtain ⟨r0, hr0, e1, e2, e3, _⟩ := extract_sound s cf.sec _ hws e he
    obtain ⟨j1, _⟩ := (hrows r0).1 hr0
    obtain ⟨p1, ⟨d0, hd0, f1, f2, _⟩, _⟩ := (mem_join _ r0).1 j1
    rw [qmolds] at hd0
    obtain ⟨q1, hq1m, v1, v2, v3⟩ := hq1 _ _ p1 d0 hd0 f1 (by rw [f2, ← e1, heid', jid])
    have : q1 = q0 := pairwise_ids q.pair hq1m hq0 (by rw [v3, u3])
    rw [e3, ← v2, this, hq0now]
  have hready : ready s now e = true := by
    unfold ready
    rw [Bool.and_eq_true, decide_eq_true_eq, List.all_eq_true]
    refine ⟨by omega, fun k _ => ?_⟩
    have : k ∉ s.absent := by
      intro hk
      obtain ⟨row, r1, _, r3⟩ := (hinv.absent.2 k).1 hk
      exact halive row (List.mem_of_getElem? r1) r3
    simpa using this
  rcases hcase with ⟨_, _, hd', _⟩ | ⟨hc, _⟩
  · obtain ⟨j', g1, g2, g3, g4⟩ := launchAll_exists now _ db2 e (List.mem_filter.2 ⟨he, hready⟩) jw (by rw [qjobs]; exact hjw) heid'
    exact ⟨j', by rw [hd']; exact g1, by rw [g2, jid], g3, g4⟩
  · exact absurd hc (by decide)

/-- **C97** (in part): if moreover the job has a single alternative, `R` is free now, no machine is switched off and no best-effort job has to be killed, the job is launched at once. -/
theorem launched_at_once_partial (cf : Conf) (ctx : Kao.Ctx) (susp labels : List String) (rs : List Res) (s : RS) (ord : List Row → List Row) (pre post : List Grp) (g : Grp)
    (now : Int) (db db' : DB) (hids : (rs.map Res.id).Nodup) (hbuild : build susp labels rs = some s) (hord : ∀ l, (ord l).Perm l)
    (hr : Regular cf ctx s (pre ++ g :: post) now db) (h : round cf ctx s ord (pre ++ g :: post) now db = some (db', 0)) (hkill : 0 ≤ cf.kill)
    (halive : ∀ row ∈ rs, row.state ≠ "Absent")
    (hheld : HeldUsable rs db) (hread : ∀ g' ∈ pre ++ g :: post, ∀ w' ∈ g'.waiting, ∀ m' ∈ w'.mlds, Readable labels m'.groups)
    (hkey : SameKey ((pre ++ g :: post).flatMap (·.waiting))) (a b : List Kao.Job) (w : Kao.Job) (hwt : g.waiting = a ++ w :: b)
    (hdep : Settled w) (hq : Kao.NoQuotas ctx w) (m : Kao.Mld) (hm : w.mlds = [m]) (hpos : 0 < m.walltime) (hne : m.groups ≠ []) (hcount : Counts m.groups)
    (R : ProcSet) (hans : Answers rs m.groups R)
    (hroom : ∀ k ∈ R, ∃ row, rs[k]? = some row ∧ row.usable = true ∧ now + m.walltime ≤ row.upto ∧ ∀ j ∈ db.jobs, Occupies j → Holds db j row.id →
      BestEffort j ∧ ∀ g' ∈ pre ++ [g], g'.names ≠ ["besteffort"])
    (hpre : ∀ g' ∈ pre, ∀ w' ∈ g'.waiting, NotOn rs R now m.walltime db' w') (hbefore : ∀ w' ∈ a, NotOn rs R now m.walltime db' w') :
    ∃ j ∈ db'.jobs, j.id = w.id ∧ j.state = "toLaunch" ∧ j.start = now := by
  obtain ⟨m', hm', t', hp', t1, t2⟩ := round_earliest_partial cf ctx susp labels rs s ord pre post g now db db' 0 hids hbuild hord hr h hheld hread hkey a b w hwt hq m
    (by rw [hm]; simp) hpos hne hcount R hans now (le_refl _) (settled_clears hdep) (fun k hk => by
      obtain ⟨row, r1, r2, r3, r4⟩ := hroom k hk
      exact ⟨row, r1, r2, r3, fun j hj ho hh => Or.inl (r4 j hj ho hh)⟩) hpre hbefore
  exact due_launched hids hbuild hord hr h hkill halive (g := g) (by simp) (w := w) (by rw [hwt]; simp) hm' hp' (by rw [hm, List.mem_singleton] at hm'; subst hm'; omega)

/-! ## Examples -/

theorem one_answers {susp labels : List String} {rs : List Res} {s : RS} {label : String} {n : Int} {C R : ProcSet} {B S : List ProcSet} (hn : (rs.map Res.id).Nodup)
    (hb : build susp labels rs = some s) (hB : (hyOf s).lookup label = some B) (hS : S.Sublist B ∧ (S.length : Int) = n ∧ ∀ b ∈ S, b ⊆ C) (hR : R = bigUnion S ∧ R ≠ ∅) :
    Answers rs [⟨[(label, n)], C⟩] R := by
  refine ⟨[R], List.Forall₂.cons ⟨hR.2, ?_, B, [], List.Forall₂.cons (hy_lookup hn hb hB) List.Forall₂.nil, fun _ => ⟨S, hS.1, hS.2.1, hS.2.2, hR.1⟩⟩ List.Forall₂.nil, ?_⟩
  · intro x hx
    rw [hR.1] at hx
    obtain ⟨b, b1, b2⟩ := mem_bigUnion.1 hx
    exact hS.2.2 b b1 b2
  · ext x
    simp [mem_bigUnion]

/-- The hypotheses hold for the second job of the first round of the example of C95, with the second machine. -/
theorem earliest_example : (exRows.map Res.id).Nodup ∧ build [] ["id"] exRows = some exS ∧ Regular { sec := 60 } exCtx exS exG1 100 exDb0 ∧
    exRun exG1 100 exDb0 = some (exDb1, 0) ∧ HeldUsable exRows exDb0 ∧ (∀ row ∈ exRows, row.state ≠ "Absent") ∧
    (∀ g' ∈ exG1, ∀ w' ∈ g'.waiting, ∀ m' ∈ w'.mlds, Readable ["id"] m'.groups) ∧ SameKey (exG1.flatMap (·.waiting)) ∧
    (∀ g' ∈ exG1.take 1, ∀ w' ∈ g'.waiting, NotOn exRows {1} 100 500 exDb1 w') ∧ Kao.NoQuotas exCtx (exBe (exWait 2 12 500)) ∧
    Answers exRows [⟨[("id", 1)], {0, 1, 2}⟩] {1} := by
  refine ⟨by decide, exS_build, exRegular (by decide +kernel) (by decide +kernel) (by decide +kernel) (by decide +kernel) (by decide +kernel) (by decide +kernel)
      ⟨by decide +kernel, by decide +kernel, by decide +kernel, by decide +kernel, by decide +kernel⟩ (by decide +kernel), by decide +kernel, ?_, ?_, ?_, ?_, ?_, ?_, ?_⟩
  · intro j hj ho
    have : ∀ j ∈ exDb0.jobs, ¬ Occupies j := by decide +kernel
    exact absurd ho (this j hj)
  · intro row hrow
    simp only [exRows, List.map_cons, List.map_nil, List.mem_cons, List.not_mem_nil, or_false] at hrow
    rcases hrow with rfl | rfl | rfl <;> decide
  · unfold Readable; decide +kernel
  · unfold SameKey; decide +kernel
  · intro g' hg' w' hw' m hm t' _ k hk row hrow hin
    have hm1 : ∀ g' ∈ exG1.take 1, ∀ w' ∈ g'.waiting, ∀ m' ∈ w'.mlds, m'.id = 11 := by decide +kernel
    rw [Finset.mem_singleton] at hk
    subst hk
    have h7 : row.id = 7 := by
      simp only [exRows, List.map_cons, List.getElem?_cons_succ, List.getElem?_cons_zero, Option.some.injEq] at hrow
      rw [← hrow]
    rw [hm1 g' hg' w' hw' m hm, h7] at hin
    exact absurd hin (by decide +kernel)
  · unfold Kao.NoQuotas; decide
  · exact one_answers (by decide) exS_build (B := [{0}, {1}, {2}]) (S := [{1}]) (by decide +kernel) (by decide) (by decide)

/-! ## Where the property fails -/

/-- Job 2 depends on job 1, which waits too. -/
def depWait : Kao.Job := { exWait 2 12 500 with deps := [⟨1, "Waiting", none⟩, ⟨9, "Error", none⟩] }
def depDb : DB := ⟨[exJob 1 "Waiting" [] 0 0, exJob 2 "Waiting" [] 0 0], [⟨11, 1, 500⟩, ⟨12, 2, 500⟩], [], [], [], [], [], []⟩
def depGs : List Grp := [⟨["default"], [exWait 1 11 500, depWait], []⟩]
def depDb1 : DB := ((exRun depGs 100 depDb).map (·.1)).getD depDb

/-- The hypotheses hold for a job that depends on the job before it, at the date at which that one ends. The machine 7 is free all the time, and the job is placed at that date (on the first
machine, free again by then). -/
theorem depends_example : Regular { sec := 60 } exCtx exS depGs 100 depDb ∧ exRun depGs 100 depDb = some (depDb1, 0) ∧ HeldUsable exRows depDb ∧
    SameKey (depGs.flatMap (·.waiting)) ∧ Clears [exWait 1 11 500] depDb1 600 depWait ∧ ¬ Clears [exWait 1 11 500] depDb1 599 depWait ∧ ¬ Settled depWait ∧
    NotOn exRows {1} 600 500 depDb1 (exWait 1 11 500) ∧ Kao.NoQuotas exCtx depWait ∧ depDb1.preds = [(11, 100), (12, 600)] := by
  have hpr : depDb1.preds = [(11, 100), (12, 600)] := by decide +kernel
  refine ⟨exRegular (by decide +kernel) (by decide +kernel) (by decide +kernel) (by decide +kernel) (by decide +kernel) (by decide +kernel)
      ⟨by decide +kernel, by decide +kernel, by decide +kernel, by decide +kernel, by decide +kernel⟩ (by decide +kernel), by decide +kernel, ?_, ?_, ?_, ?_, by decide, ?_, ?_, hpr⟩
  · intro j hj ho
    have : ∀ j ∈ depDb.jobs, ¬ Occupies j := by decide +kernel
    exact absurd ho (this j hj)
  · unfold SameKey; decide +kernel
  · intro d hd
    simp only [depWait, List.mem_cons, List.not_mem_nil, or_false] at hd
    rcases hd with rfl | rfl
    · refine Or.inr (Or.inr ⟨rfl, exWait 1 11 500, by simp, rfl, rfl, fun m hm t' ht' => ?_⟩)
      simp only [exWait, List.mem_singleton] at hm
      subst hm
      rw [hpr] at ht'
      simp at ht'
      subst ht'
      decide
    · exact Or.inl rfl
  · intro h
    rcases h ⟨1, "Waiting", none⟩ (by simp [depWait]) with e | e | ⟨_, w', hw', _, _, e⟩
    · exact absurd e (by decide)
    · exact absurd e.1 (by decide)
    · rw [List.mem_singleton] at hw'
      subst hw'
      have := e ⟨11, 500, [⟨[("id", 1)], {0, 1, 2}⟩]⟩ (by simp [exWait]) 100 (by rw [hpr]; simp)
      exact absurd this (by decide)
  · intro m hm t' _ k hk row hrow hin
    simp only [exWait, List.mem_singleton] at hm
    subst hm
    rw [Finset.mem_singleton] at hk
    subst hk
    have h7 : row.id = 7 := by
      simp only [exRows, List.map_cons, List.getElem?_cons_succ, List.getElem?_cons_zero, Option.some.injEq] at hrow
      rw [← hrow]
    rw [h7] at hin
    exact absurd hin (by decide +kernel)
  · rintro ⟨q1, _⟩
    exact absurd q1 (by decide)

/-- Three machines, the second one does not answer. -/
def badRows : List Res := [(5, "Alive"), (7, "Suspected"), (9, "Alive")].map (fun p => ⟨p.1, p.2, "default", 2147483646, "n", fun _ => ""⟩)

def badS : RS := (build [] ["id"] badRows).getD (ResSet.init [])

theorem badS_build : build [] ["id"] badRows = some badS := by
  unfold badS
  cases h : build [] ["id"] badRows with
  | none => exact absurd h (by simp [build, load, addRes, badRows, Res.usable, maxRes])
  | some s => rfl

/-- Job 1 runs on the machine that does not answer; job 2 waits for the two others. -/
def badDb : DB := ⟨[exJob 1 "Running" [] 50 11, exJob 2 "Waiting" [] 0 0], [⟨11, 1, 500⟩, ⟨12, 2, 500⟩], [], [], [(11, 7)], [], [], []⟩

def badWait : Kao.Job := { id := 2, mlds := [⟨12, 500, [⟨[("id", 2)], {0, 1, 2}⟩]⟩] }

def badGs : List Grp := [⟨["default"], [badWait], []⟩]

/-- **C97** is violated: a running job whose machine has become unusable is placed on the first machine of the table, which is free. The waiting job that asks for the two machines in
order, both free, is not launched: it waits until the end of the running job. -/
theorem phantom_violated : Regular { sec := 60 } exCtx badS badGs 100 badDb ∧ (∀ j ∈ badDb.jobs, ¬ Holds badDb j 5 ∧ ¬ Holds badDb j 9) ∧
    Answers badRows [⟨[("id", 2)], {0, 1, 2}⟩] {0, 2} ∧
    ∃ db', round { sec := 60 } exCtx badS id badGs 100 badDb = some (db', 0) ∧ (∃ j ∈ db'.jobs, j.id = 2 ∧ j.state = "Waiting") ∧ db'.preds = [(11, 50), (12, 610)] ∧
      db'.gres = [(11, 5), (12, 5), (12, 9)] := by
  refine ⟨⟨sound_of (by decide +kernel) (by decide +kernel) (by decide +kernel) (by decide +kernel), by unfold OnTime; decide +kernel,
    by unfold Simple; decide +kernel, ⟨by decide +kernel, by decide +kernel, by decide +kernel, by decide +kernel, by decide +kernel⟩,
    ⟨[], ["id"], badRows, by decide, badS_build, by simp [badRows, Kao.maxTime], Or.inl rfl⟩, rfl, by decide +kernel⟩, by decide +kernel, ?_,
    ((round { sec := 60 } exCtx badS id badGs 100 badDb).map (·.1)).getD badDb, by decide +kernel, by decide +kernel, by decide +kernel, by decide +kernel⟩
  exact one_answers (by decide) badS_build (B := [{0}, {2}]) (S := [{0}, {2}]) (by decide +kernel) (by decide) (by decide)

end Oar.Round
