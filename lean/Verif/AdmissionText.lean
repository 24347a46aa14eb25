import Verif.AdmissionProps
import Verif.DataJobsMeaning

/-!
# C72: the conditions required from the resources of a job; C71: disagreements with the expected behaviour
-/

namespace Oar.Admission

open Oar.Submission Oar.Tools Oar.Sql

/-- A condition which may be absent. -/
def Meets (val : List Tok → Bool) (q : List Char) : Prop := q = [] ∨ Holds val q

/-- A condition which may be added to the properties. -/
structure Simple (a : List Char) : Prop where
  ne : a ≠ []
  closed : Closed a
  noOr : NoOr a

theorem besteffort_simple : Simple (txt "besteffort = 'YES'") := by
  simp only [txt, String.reduceToList]
  exact ⟨by simp, by decide +kernel, by decide +kernel⟩

theorem deploy_simple : Simple (txt "deploy = 'YES'") := by
  simp only [txt, String.reduceToList]
  exact ⟨by simp, by decide +kernel, by decide +kernel⟩

theorem drain_simple : Simple (txt "drain='NO'") := by
  simp only [txt, String.reduceToList]
  exact ⟨by simp, by decide +kernel, by decide +kernel⟩

theorem addCond_spec (q a : List Char) (hq : Closed q) (ha : Simple a) : Simple (addCond q a) ∧
    ∀ val, Holds val (addCond q a) ↔ Meets val q ∧ Holds val a := by
  unfold addCond
  by_cases h : q = []
  · rw [if_neg (by simp [h])]
    exact ⟨ha, fun val => ⟨fun hh => ⟨Or.inl h, hh⟩, fun hh => hh.2⟩⟩
  · rw [if_pos h]
    have hc := closed_paren_and q a hq ha.closed ha.noOr
    refine ⟨⟨by simp [txt], hc.1, hc.2⟩, fun val => ?_⟩
    rw [holds_paren_and val q a hq ha.noOr]
    unfold Meets
    simp [h]

theorem withAdmin_addCond (p : Params) (a : List Char) (h : p.admin = some a) : withAdmin p = addCond p.props a := by
  unfold withAdmin addCond
  rw [h]
  dsimp only
  by_cases hp : p.props ≠ []
  · rw [if_pos hp, if_pos hp]; simp [txt]
  · rw [if_neg hp, if_neg hp]

/-- The properties recorded for any job of a submission: those of the parameters and the condition of the administrator. -/
theorem propsAt_spec (p : Params) (a : List Char) (h : p.admin = some a) (ha : Simple a) (hp : Closed p.props) :
    ∀ k, Closed (propsAt p k) ∧ (0 < k → Simple (propsAt p k) ∧ ∀ val, Holds val (propsAt p k) ↔ Meets val p.props ∧ Holds val a)
  | 0 => ⟨hp, fun h => absurd h (by omega)⟩
  | k + 1 => by
    have ih := propsAt_spec p a h ha hp k
    have e : propsAt p (k + 1) = addCond (propsAt p k) a := withAdmin_addCond { p with props := propsAt p k } a h
    have hs := addCond_spec (propsAt p k) a ih.1 ha
    rw [e]
    refine ⟨hs.1.closed, fun _ => ⟨hs.1, fun val => ?_⟩⟩
    rw [hs.2 val]
    cases k with
    | zero => exact Iff.rfl
    | succ k =>
      have h2 := ih.2 (by omega)
      unfold Meets
      constructor
      · rintro ⟨h' | h', h3⟩
        · exact absurd h' h2.1.ne
        · exact ⟨((h2.2 val).1 h').1, h3⟩
      · rintro ⟨h1, h3⟩
        exact ⟨Or.inr ((h2.2 val).2 ⟨h1, h3⟩), h3⟩

/-- The properties of the rows of an accepted submission. -/
theorem submit_props (quotas : Bool) (queues : List String) (rs : Params → Option Params) (dw : Int) (est : List Char → Int) (date : Int)
    (db db' : DB) (hv : Valid db) (p p3 : Params) (ha : Admitted quotas queues rs p p3) (hf : Feasible est p3) (ids : List Nat)
    (h : submit quotas queues rs dw est date db p = some (0, ids, db')) (r : SJob) (hr : r ∈ db'.jobs) (hid : r.id ∈ ids) :
    ∃ k, r.props = propsAt p3 (k + 1) := by
  rw [submit_admitted _ _ _ _ _ _ _ _ _ ha] at h
  unfold Feasible at hf
  by_cases hcase : 1 < asked p3 ∧ p3.useKey = false
  · rw [if_pos hcase] at h hf
    obtain ⟨h0, i, hi⟩ := hf
    obtain ⟨db1, e, _, _, j, _, _⟩ := addArray_spec dw est date db hv p3 (commands p3) i hi h0
    rw [e] at h
    simp only [Option.map_some, Option.some.injEq, Prod.mk.injEq, true_and] at h
    obtain ⟨rfl, rfl⟩ := h
    rw [j] at hr
    rcases List.mem_append.1 hr with hr | hr
    · have := (hv.jobs r hr).1
      rw [List.mem_range'_1] at hid
      omega
    · obtain ⟨x, _, rfl⟩ := List.mem_map.1 hr
      exact ⟨0, rfl⟩
  · rw [if_neg hcase] at h hf
    rw [← commands_length] at hf
    obtain ⟨db1, e, _, _, j, _, _⟩ := addLoop_spec dw est date (commands p3) db p3 hv hf
    rw [e] at h
    simp only [Option.some.injEq, Prod.mk.injEq, true_and] at h
    obtain ⟨rfl, rfl⟩ := h
    rw [j] at hr
    rcases List.mem_append.1 hr with hr | hr
    · have := (hv.jobs r hr).1
      rw [List.mem_range'_1] at hid
      omega
    · obtain ⟨x, _, rfl⟩ := List.mem_map.1 hr
      exact ⟨x.1, rfl⟩

/-- **C72. The resources of a job satisfy all the conditions.** For every submission accepted by the default rules, whose properties
are well-formed, and every group of properties without OR outside parentheses, the resources among which the scheduler chooses are
exactly those that satisfy the properties of the user, those of the group and the conditions of the rules: not drained; open to
best-effort jobs if the job is one; open to deployments if the job is one. -/
theorem conditions_required_partial (quotas : Bool) (queues : List String) (c : Ctx) (dw : Int) (est : List Char → Int) (date : Int)
    (db db' : DB) (hv : Valid db) (p : Params) (hp : Closed p.props) (ids : List Nat)
    (h : submit quotas queues (rules c) dw est date db p = some (0, ids, db')) (r : SJob) (hr : r ∈ db'.jobs) (hid : r.id ∈ ids)
    (gprop : List Char) (hg : NoOr gprop) (val : List Tok → Bool) (dflt : Prop) (hd : Holds val (txt "type = 'default'") ↔ dflt) :
    Selected dflt val (constraints r.props gprop) ↔
      Meets val p.props ∧ Meets val gprop ∧ Holds val (txt "drain='NO'") ∧ (BestEffort p → Holds val (txt "besteffort = 'YES'")) ∧
      (Deploy p → Holds val (txt "deploy = 'YES'")) := by
  -- the submission was admitted
  have hadm : ∃ p2, rules c (if quotas then { p with types := p.types.erase (txt "no_quotas") } else p) = some p2 ∧ p2.queue ∈ queues := by
    unfold submit at h
    dsimp only at h
    cases hx : rules c (if quotas = true then { p with types := p.types.erase (txt "no_quotas") } else p) with
    | none => rw [hx] at h; exact absurd (Prod.mk.inj (Option.some.inj h)).1 (by decide)
    | some p2 =>
      rw [hx] at h
      dsimp only at h
      by_cases hq : p2.queue ∉ queues
      · rw [if_pos hq] at h; exact absurd (Prod.mk.inj (Option.some.inj h)).1 (by decide)
      · exact ⟨p2, rfl, Decidable.of_not_not hq⟩
  obtain ⟨p2, h2, hq⟩ := hadm
  have ha : Admitted quotas queues (rules c) p (if quotas ∧ p2.queue = "admin" then { p2 with types := p2.types ++ [txt "no_quotas"] } else p2) :=
    ⟨p2, h2, hq, rfl⟩
  have hf := submit_feasible quotas queues (rules c) dw est date db db' p _ ha ids h (List.ne_nil_of_mem hid)
  obtain ⟨k, hk⟩ := submit_props quotas queues (rules c) dw est date db db' hv p _ ha hf ids h r hr hid
  -- the parameters after the rules
  have hj := accepted_job c _ p2 h2
  generalize hp1 : (if quotas = true then { p with types := p.types.erase (txt "no_quotas") } else p) = p1 at hj h2
  have props1 : p1.props = p.props := by rw [← hp1]; split <;> rfl
  have be1 : BestEffort p1 ↔ BestEffort p := by
    rw [← hp1]
    split
    · unfold BestEffort
      dsimp only
      rw [List.mem_erase_of_ne (by decide)]
    · exact Iff.rfl
  have de1 : Deploy p1 ↔ Deploy p := by
    rw [← hp1]
    split
    · unfold Deploy
      dsimp only
      rw [List.mem_erase_of_ne (by decide)]
    · exact Iff.rfl
  generalize hp3 : (if quotas = true ∧ p2.queue = "admin" then { p2 with types := p2.types ++ [txt "no_quotas"] } else p2) = p3 at ha hf hk
  have props3 : p3.props = p2.props := by rw [← hp3]; split <;> rfl
  have admin3 : p3.admin = some (txt "drain='NO'") := by
    have : p3.admin = p2.admin := by rw [← hp3]; split <;> rfl
    rw [this, hj.admin]
  -- the properties after the rules
  have hq2 : Closed p2.props ∧ (Meets val p2.props ↔ Meets val p.props ∧ (BestEffort p → Holds val (txt "besteffort = 'YES'")) ∧
      (Deploy p → Holds val (txt "deploy = 'YES'"))) := by
    obtain ⟨q, q1, q2, q3, q4⟩ := hj.props
    rw [props1, be1] at q1
    rw [props1, be1] at q2
    rw [de1] at q3
    rw [de1] at q4
    have hq : Closed q ∧ (Meets val q ↔ Meets val p.props ∧ (BestEffort p → Holds val (txt "besteffort = 'YES'"))) := by
      by_cases hb : BestEffort p
      · have hs := addCond_spec p.props _ hp besteffort_simple
        rw [q1 hb]
        refine ⟨hs.1.closed, ?_⟩
        constructor
        · rintro (h | h)
          · exact absurd h hs.1.ne
          · exact ⟨((hs.2 val).1 h).1, fun _ => ((hs.2 val).1 h).2⟩
        · rintro ⟨a, b⟩
          exact Or.inr ((hs.2 val).2 ⟨a, b hb⟩)
      · rw [q2 hb]
        exact ⟨hp, fun h => ⟨h, fun h' => absurd h' hb⟩, fun h => h.1⟩
    by_cases hdp : Deploy p
    · have hs := addCond_spec q _ hq.1 deploy_simple
      rw [q3 hdp]
      refine ⟨hs.1.closed, ?_⟩
      constructor
      · rintro (h | h)
        · exact absurd h hs.1.ne
        · have := (hs.2 val).1 h
          exact ⟨(hq.2.1 this.1).1, (hq.2.1 this.1).2, fun _ => this.2⟩
      · rintro ⟨a, b, d⟩
        exact Or.inr ((hs.2 val).2 ⟨hq.2.2 ⟨a, b⟩, d hdp⟩)
    · rw [q4 hdp]
      exact ⟨hq.1, fun h => ⟨(hq.2.1 h).1, (hq.2.1 h).2, fun h' => absurd h' hdp⟩, fun h => hq.2.2 ⟨h.1, h.2.1⟩⟩
  have hs := (propsAt_spec p3 _ admin3 drain_simple (by rw [props3]; exact hq2.1) (k + 1)).2 (by omega)
  rw [← hk, props3] at hs
  rw [constraints_both r.props gprop hs.1.closed hs.1.noOr hg dflt val hd]
  have hmg : (gprop ≠ [] → Holds val gprop) ↔ Meets val gprop := by
    unfold Meets
    by_cases he : gprop = [] <;> simp [he]
  constructor
  · rintro (⟨h1, _⟩ | ⟨_, h1, h2⟩)
    · exact absurd h1 hs.1.ne
    · have := (hs.2 val).1 (h1 hs.1.ne)
      have h3 := hq2.2.1 this.1
      exact ⟨h3.1, hmg.1 h2, this.2, h3.2.1, h3.2.2⟩
  · rintro ⟨h1, h2, h3, h4, h5⟩
    exact Or.inr ⟨Or.inl hs.1.ne, fun _ => (hs.2 val).2 ⟨hq2.2.2 ⟨h1, h4, h5⟩, h3⟩, hmg.2 h2⟩

/-! ## Concrete cases -/

/-- A user, and nothing special. -/
def exCtx : Ctx := ⟨txt "alice", false, some [txt "bob"], true, none, [], fun c => c.isAlphanum || c = '_'⟩

/-- A best-effort job with properties. -/
def exBe : Params := { exParams with props := txt "cluster='a' OR cluster='b'", request := [⟨[⟨txt "mem>1", [(txt "host", .num (txt "2"))]⟩], none⟩] }

/-- The job is accepted, goes to the queue of the best-effort jobs, gets its walltime and its conditions. -/
example : (submit true ["besteffort"] (rules exCtx) 3600 (fun _ => 0) 5 exDB exBe).map (fun x => (x.1, x.2.1, x.2.2.jobs.drop 1 |>.map (·.props), x.2.2.molds.drop 1 |>.map (·.walltime))) =
    some (0, [10], [txt "((cluster='a' OR cluster='b') AND besteffort = 'YES') AND drain='NO'"], [7200]) := by
  simp only [txt, String.reduceToList]
  decide +kernel

example : Closed exBe.props ∧ NoOr (txt "mem>1") ∧ BestEffort exBe ∧ Valid exDB := by
  refine ⟨?_, ?_, Or.inl (by decide), exDB_valid⟩
  · simp only [exBe, txt, String.reduceToList]; decide +kernel
  · simp only [txt, String.reduceToList]; decide +kernel

/-! ## Disagreements with the expected behaviour -/

/-- C72 (violated). One would expect that no resource in drain mode is given to a job, whatever its request. The properties of a group
are joined without parentheses: with the request `{host='a' OR host='b'}/host=1`, accepted by the rules, the host b is selected
although it is drained. -/
theorem drained_violated : ∃ (p : Params) (db' : DB) (r : SJob) (gprop : List Char) (val : List Tok → Bool),
    submit true ["default"] (rules exCtx) 3600 (fun _ => 0) 5 exDB p = some (0, [10], db') ∧ r ∈ db'.jobs ∧ r.id = 10 ∧
    (∃ i ∈ p.request, ∃ g ∈ i.groups, g.prop = gprop) ∧ Closed p.props ∧ Closed gprop ∧
    ¬ Holds val (txt "drain='NO'") ∧ Selected False val (constraints r.props gprop) := by
  refine ⟨{ exParams with types := [], props := [], request := [⟨[⟨txt "host='a' OR host='b'", [(txt "host", .num (txt "1"))]⟩], none⟩] },
    ((submit true ["default"] (rules exCtx) 3600 (fun _ => 0) 5 exDB { exParams with types := [], props := [], request := [⟨[⟨txt "host='a' OR host='b'", [(txt "host", .num (txt "1"))]⟩], none⟩] }).map (·.2.2)).getD exDB,
    ⟨10, 10, 1, txt "run", "Waiting", "None", 0, txt "drain='NO'", "default"⟩, txt "host='a' OR host='b'", fun f => f = [.word (txt "host='b'")], ?_⟩
  simp only [txt, String.reduceToList]
  decide +kernel

/-- C72 (violated). The same with properties of the job whose parentheses are not balanced: `host='a') OR (host='b'`. They are
accepted, and the conditions of the rules are not required: a best-effort job may use a drained resource which refuses best-effort jobs. -/
theorem unbalanced_violated : ∃ (p : Params) (db' : DB) (r : SJob) (val : List Tok → Bool),
    submit true ["besteffort"] (rules exCtx) 3600 (fun _ => 0) 5 exDB p = some (0, [10], db') ∧ r ∈ db'.jobs ∧ r.id = 10 ∧ BestEffort p ∧
    ¬ Holds val (txt "drain='NO'") ∧ ¬ Holds val (txt "besteffort = 'YES'") ∧ Selected False val (constraints r.props []) := by
  refine ⟨{ exParams with props := txt "host='a')) OR ((host='b'", request := [⟨[⟨[], [(txt "host", .num (txt "1"))]⟩], none⟩] },
    ((submit true ["besteffort"] (rules exCtx) 3600 (fun _ => 0) 5 exDB { exParams with props := txt "host='a')) OR ((host='b'", request := [⟨[⟨[], [(txt "host", .num (txt "1"))]⟩], none⟩] }).map (·.2.2)).getD exDB,
    ⟨10, 10, 1, txt "run", "Waiting", "None", 0, txt "((host='a')) OR ((host='b') AND besteffort = 'YES') AND drain='NO'", "besteffort"⟩, fun f => f = [.word (txt "host='a'")], ?_⟩
  simp only [txt, String.reduceToList]
  decide +kernel

/-- C71 (violated). One would expect the rules on deployments to apply to all the deployments. The type `deploy=standby` is accepted, but
such a job may ask for cores, and its resources need not be open to deployments. -/
theorem deploy_standby_violated : ∃ (p p' : Params), rules exCtx p = some p' ∧ txt "deploy=standby" ∈ p'.types ∧ Asks p' (txt "core") ∧ p'.props = p.props := by
  refine ⟨{ exParams with types := [txt "deploy=standby"], request := [⟨[⟨[], [(txt "core", .num (txt "1"))]⟩], some 60⟩] },
    { exParams with types := [txt "deploy=standby"], admin := some (txt "drain='NO'"), request := [⟨[⟨[], [(txt "core", .num (txt "1"))]⟩], some 60⟩] }, ?_, by simp, ?_, rfl⟩
  · simp only [txt, String.reduceToList]
    decide +kernel
  · exact ⟨_, List.mem_singleton.2 rfl, _, List.mem_singleton.2 rfl, _, List.mem_singleton.2 rfl⟩

/-- C71 (violated). One would expect that the jobs without execution, of type `noop`, can be submitted, since the submission handles
them: the rules refuse all of them. -/
theorem noop_refused_violated (c : Ctx) (p : Params) (h : txt "noop" ∈ p.types) : rules c p = none := by
  cases hx : rules c p with
  | none => rfl
  | some p' =>
    exfalso
    have ha := ((accepted_iff c p).1 ⟨p', hx⟩).types _ h
    rw [← matchType_iff] at ha
    have : ∀ w : Char → Bool, matchType w (txt "noop") = false := by
      intro w
      rfl
    rw [this] at ha
    exact absurd ha (by simp)

/-- C71 (violated). One would expect an unknown type to be refused: a known type followed by a newline is accepted, and such a
best-effort type does not make the job a best-effort one. -/
theorem newline_type_violated : ∃ (p p' : Params), rules exCtx p = some p' ∧ txt "besteffort\n" ∈ p'.types ∧ p'.queue = "default" := by
  refine ⟨{ exParams with types := [txt "besteffort\n"], request := [] }, { exParams with types := [txt "besteffort\n"], request := [], admin := some (txt "drain='NO'") }, ?_, by simp, rfl⟩
  simp only [txt, String.reduceToList]
  decide +kernel

end Oar.Admission
