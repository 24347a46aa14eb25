import Verif.Priority
import Mathlib.Algebra.BigOperators.Group.Finset.Basic
import Mathlib.Tactic.Ring
import Mathlib.Tactic.Linarith

/-!
# C79: the priorities of the resources follow the best-effort and timesharing jobs
-/

namespace Oar.Priority

open Oar.Tools

/-! ## Specification -/

/-- The job has the type. -/
def Typed (j : Job) (t : String) : Prop := ∃ v, (t, v) ∈ j.types

/-- The resource has the same property as a resource of the job. -/
def Near (e : Env) (jid : Nat) (f : List Char) (r : Nat) : Prop :=
  ∃ a ∈ e.assigned jid, ∃ v, e.attr f a = some v ∧ e.attr f r = some v

open Classical in
/-- The sum of the ranks (from 1) of the levels at which the resource is near the job. -/
noncomputable def rank (e : Env) (jid : Nat) (fs : List (List Char)) (r : Nat) : Int :=
  ((fs.zipIdx 1).map (fun x => if Near e jid x.1 r then (x.2 : Int) else 0)).sum

open Classical in
/-- The weight of a job: 10 when it is best-effort and not timesharing. -/
noncomputable def weight (j : Job) : Int := if Typed j "besteffort" ∧ ¬ Typed j "timesharing" then 10 else 1

/-- What a job adds to the priority of a resource. -/
noncomputable def share (e : Env) (fs : List (List Char)) (s : Sys) (jid r : Nat) : Int :=
  match s.jobs jid with
  | some j => 2 * weight j * rank e jid fs r
  | none => 0

/-- The priorities were updated for the start of this job. -/
def Started (s : Sys) (jid : Nat) : Prop := ("SCHEDULER_PRIORITY_UPDATED_START", jid) ∈ s.events

/-- The type was taken from the job by an administrator. -/
def Lost (s : Sys) (jid : Nat) : Prop := ("DELETE_BESTEFFORT_JOB_TYPE", jid) ∈ s.events

/-- The job has not ended. -/
def Live (j : Job) : Prop := j.state ≠ "Terminated" ∧ j.state ≠ "Error"

/-- A job of these types that has started and has not ended. -/
def Counted (s : Sys) (jid : Nat) : Prop :=
  Started s jid ∧ ∃ j, s.jobs jid = some j ∧ Live j ∧ (Typed j "besteffort" ∨ Typed j "timesharing")

/-- The type is only changed for a job that is not timesharing, whose type has no value and that has not lost it before. -/
def LegalOp (s : Sys) : Op → Prop
  | .state _ _ => True
  | .toggle jid => ∀ j, s.jobs jid = some j → ¬ Typed j "timesharing" ∧ (∀ v, ("besteffort", v) ∈ j.types → v = none) ∧ ¬ Lost s jid

/-- Every operation of the history is legal. -/
def Legal (e : Env) : Sys → List Op → Prop
  | _, [] => True
  | s, op :: ops => LegalOp s op ∧ Legal e (step e s op) ops

/-! ## The update -/

theorem has_iff (j : Job) (t : String) : has j t = true ↔ Typed j t := by
  unfold has Typed
  rw [List.any_eq_true]
  constructor
  · rintro ⟨⟨a, v⟩, h, e⟩
    have e : a = t := by simpa using e
    exact ⟨v, e ▸ h⟩
  · rintro ⟨v, h⟩; exact ⟨(t, v), h, by simp⟩

theorem hit_iff (e : Env) (jid : Nat) (f : List Char) (r : Nat) : hit e jid f r = true ↔ Near e jid f r := by
  unfold hit Near
  rw [List.any_eq_true]
  constructor
  · rintro ⟨a, h, x⟩
    rw [Bool.and_eq_true, beq_iff_eq, Option.isSome_iff_exists] at x
    obtain ⟨x, v, y⟩ := x
    exact ⟨a, h, v, x.trans y, y⟩
  · rintro ⟨a, h, v, x, y⟩
    exact ⟨a, h, by rw [x, y]; simp⟩

open Classical in
theorem apply_spec (e : Env) (jid : Nat) (v c : Int) (hne : e.assigned jid ≠ []) : ∀ (fs : List (List Char)) (i : Nat) (p : Nat → Int),
    (apply e jid v c i fs p).2 = true ∧
    ∀ r, (apply e jid v c i fs p).1 r = p r + v * c * ((fs.zipIdx (i + 1)).map (fun x => if Near e jid x.1 r then (x.2 : Int) else 0)).sum
  | [], i, p => by simp [apply]
  | f :: fs, i, p => by
    rw [apply, if_neg hne]
    obtain ⟨h1, h2⟩ := apply_spec e jid v c hne fs (i + 1) (fun r => if hit e jid f r then p r + v * ((i + 1 : Nat) : Int) * c else p r)
    refine ⟨h1, fun r => ?_⟩
    rw [h2 r, List.zipIdx_cons, List.map_cons, List.sum_cons]
    dsimp only
    by_cases h : Near e jid f r
    · rw [if_pos ((hit_iff e jid f r).2 h), if_pos h]; ring
    · rw [if_neg (fun x => h ((hit_iff e jid f r).1 x)), if_neg h]; ring

theorem rank_none (e : Env) (jid : Nat) (fs : List (List Char)) (r : Nat) (h : e.assigned jid = []) : rank e jid fs r = 0 := by
  unfold rank
  have : ∀ l : List (List Char × Nat), (l.map (fun x => @ite Int (Near e jid x.1 r) (Classical.propDecidable _) (x.2 : Int) 0)).sum = 0 := by
    intro l
    induction l with
    | nil => rfl
    | cons x l ih =>
      rw [List.map_cons, List.sum_cons, ih, if_neg (by rintro ⟨a, ha, _⟩; rw [h] at ha; cases ha)]
      rfl
  exact this _

/-- The condition of the update. -/
def Guard (s : Sys) (jid : Nat) (j : Job) (st : String) : Prop :=
  (Typed j "besteffort" ∨ Typed j "timesharing") ∧ ((st = "START" ∧ ¬ Started s jid) ∨ (st = "STOP" ∧ Started s jid))

theorem count_pos (s : Sys) (jid : Nat) : 0 < count s jid "SCHEDULER_PRIORITY_UPDATED_START" ↔ Started s jid := by
  unfold count Started
  exact List.count_pos_iff

theorem update_spec (e : Env) (o : List Char) (ho : e.order = some o) (s : Sys) (jid : Nat) (j : Job) (v : Int) (st : String) :
    (update e s jid j v st).jobs = s.jobs ∧
    (Guard s jid j st →
      (∀ r, (update e s jid j v st).prio r = s.prio r + v * weight j * rank e jid (levels o) r) ∧
      (update e s jid j v st).events =
        s.events ++ (if levels o = [] ∨ e.assigned jid ≠ [] then [("SCHEDULER_PRIORITY_UPDATED_" ++ st, jid)] else [])) ∧
    (¬ Guard s jid j st → update e s jid j v st = s) := by
  have hg : (((has j "besteffort" || has j "timesharing") &&
        ((st == "START" && count s jid "SCHEDULER_PRIORITY_UPDATED_START" == 0) ||
         (st == "STOP" && decide (count s jid "SCHEDULER_PRIORITY_UPDATED_START" > 0)))) = true) ↔ Guard s jid j st := by
    unfold Guard
    rw [Bool.and_eq_true, Bool.or_eq_true, Bool.or_eq_true, Bool.and_eq_true, Bool.and_eq_true, has_iff, has_iff, beq_iff_eq, beq_iff_eq, beq_iff_eq,
      decide_eq_true_iff, gt_iff_lt, count_pos]
    have : count s jid "SCHEDULER_PRIORITY_UPDATED_START" = 0 ↔ ¬ Started s jid := by rw [← count_pos]; omega
    rw [this]
  have hw : (if (has j "besteffort" && !has j "timesharing") = true then (10 : Int) else 1) = weight j := by
    unfold weight
    by_cases h : Typed j "besteffort" ∧ ¬ Typed j "timesharing"
    · rw [if_pos h, if_pos]
      rw [Bool.and_eq_true, Bool.not_eq_true', has_iff]
      exact ⟨h.1, by rw [← Bool.not_eq_true, has_iff]; exact h.2⟩
    · rw [if_neg h, if_neg]
      rw [Bool.and_eq_true, Bool.not_eq_true', has_iff, ← Bool.not_eq_true, has_iff]
      exact h
  unfold update
  rw [ho]
  dsimp only
  by_cases g : Guard s jid j st
  · rw [if_pos (hg.2 g), hw]
    by_cases hne : e.assigned jid = []
    · cases hl : levels o with
      | nil =>
        rw [apply]
        refine ⟨rfl, fun _ => ⟨fun r => ?_, ?_⟩, fun h => absurd g h⟩
        · rw [rank_none _ _ _ _ hne]; simp
        · simp
      | cons f fs =>
        rw [apply, if_pos hne]
        refine ⟨rfl, fun _ => ⟨fun r => ?_, ?_⟩, fun h => absurd g h⟩
        · rw [rank_none _ _ _ _ hne]; simp
        · simp [hne]
    · obtain ⟨h1, h2⟩ := apply_spec e jid v (weight j) hne (levels o) 0 s.prio
      rw [if_pos h1]
      refine ⟨rfl, fun _ => ⟨fun r => ?_, ?_⟩, fun h => absurd g h⟩
      · exact h2 r
      · simp [hne]
  · rw [if_neg (fun h => g (hg.1 h))]
    exact ⟨rfl, fun h => absurd h g, fun _ => rfl⟩

/-! ## The invariant -/

/-- The two parts of the invariant. -/
structure Inv (e : Env) (fs : List (List Char)) (base : Nat → Int) (s : Sys) : Prop where
  eq : ∀ r (S : Finset Nat), (∀ j, j ∈ S ↔ Counted s j) → s.prio r = base r + ∑ j ∈ S, share e fs s j r
  kept : ∀ jid, Started s jid → ∀ j, s.jobs jid = some j → Typed j "besteffort" ∨ Typed j "timesharing" ∨ Lost s jid

theorem start_name : "SCHEDULER_PRIORITY_UPDATED_" ++ "START" = "SCHEDULER_PRIORITY_UPDATED_START" := by decide

/-- What the job counts for now. -/
noncomputable def now (e : Env) (fs : List (List Char)) (s : Sys) (jid r : Nat) : Int :=
  @ite Int (Counted s jid) (Classical.propDecidable _) (share e fs s jid r) 0

theorem now_pos {e : Env} {fs : List (List Char)} {s : Sys} {jid r : Nat} (h : Counted s jid) : now e fs s jid r = share e fs s jid r := by
  unfold now; rw [if_pos h]

theorem now_neg {e : Env} {fs : List (List Char)} {s : Sys} {jid r : Nat} (h : ¬ Counted s jid) : now e fs s jid r = 0 := by
  unfold now; rw [if_neg h]

theorem mem_events {s s' : Sys} {jid : Nat} {evs : List (String × Nat)} (h : s'.events = s.events ++ evs) (hk : ∀ x ∈ evs, x.2 = jid) (t : String) {k : Nat}
    (hkj : k ≠ jid) : (t, k) ∈ s'.events ↔ (t, k) ∈ s.events := by
  rw [h, List.mem_append]
  constructor
  · rintro (h | h)
    · exact h
    · exact absurd (hk _ h) hkj
  · exact Or.inl

open Classical in
/-- A change that concerns one job only. -/
theorem change {e : Env} {fs : List (List Char)} {base : Nat → Int} {s s' : Sys} (jid : Nat) (evs : List (String × Nat))
    (hj : ∀ k, k ≠ jid → s'.jobs k = s.jobs k) (hev : s'.events = s.events ++ evs) (hk : ∀ x ∈ evs, x.2 = jid)
    (hp : ∀ r, s'.prio r + now e fs s jid r = s.prio r + now e fs s' jid r)
    (hkept : Started s' jid → ∀ j, s'.jobs jid = some j → Typed j "besteffort" ∨ Typed j "timesharing" ∨ Lost s' jid)
    (h : Inv e fs base s) : Inv e fs base s' := by
  have hst : ∀ t k, k ≠ jid → ((t, k) ∈ s'.events ↔ (t, k) ∈ s.events) := fun t k hkj => mem_events hev hk t hkj
  have hc : ∀ k, k ≠ jid → (Counted s' k ↔ Counted s k) := by
    intro k hkj
    unfold Counted Started
    rw [hst _ k hkj, hj k hkj]
  have hs : ∀ k, k ≠ jid → ∀ r, share e fs s' k r = share e fs s k r := by
    intro k hkj r
    unfold share
    rw [hj k hkj]
  refine ⟨fun r S' hS' => ?_, fun k hk1 j hk2 => ?_⟩
  · have e1 := h.eq r (if Counted s jid then insert jid (S'.erase jid) else S'.erase jid) (by
      intro k
      by_cases hkj : k = jid
      · subst hkj
        by_cases hc : Counted s k
        · rw [if_pos hc]; simp [hc]
        · rw [if_neg hc]; simp [hc]
      · by_cases hcc : Counted s jid
        · rw [if_pos hcc]; simp [hkj, hS', hc k hkj]
        · rw [if_neg hcc]; simp [hkj, hS', hc k hkj])
    have e2 : ∑ j ∈ (if Counted s jid then insert jid (S'.erase jid) else S'.erase jid), share e fs s j r =
        now e fs s jid r + ∑ j ∈ S'.erase jid, share e fs s j r := by
      by_cases hcc : Counted s jid
      · rw [if_pos hcc, Finset.sum_insert (by simp), now_pos hcc]
      · rw [if_neg hcc, now_neg hcc]; simp
    have e3 : ∑ j ∈ S', share e fs s' j r = now e fs s' jid r + ∑ j ∈ S'.erase jid, share e fs s j r := by
      have : ∑ j ∈ S'.erase jid, share e fs s j r = ∑ j ∈ S'.erase jid, share e fs s' j r :=
        Finset.sum_congr rfl (fun k hk => (hs k (Finset.ne_of_mem_erase hk) r).symm)
      rw [this]
      by_cases hcc : Counted s' jid
      · rw [now_pos hcc, Finset.add_sum_erase S' (fun j => share e fs s' j r) ((hS' jid).2 hcc)]
      · rw [now_neg hcc, Finset.erase_eq_of_notMem (fun hx => hcc ((hS' jid).1 hx))]; simp
    rw [e2] at e1
    rw [e3]
    have := hp r
    linarith
  · by_cases hkj : k = jid
    · subst hkj; exact hkept hk1 j hk2
    · have := h.kept k ((hst _ k hkj).1 hk1) j (by rw [← hj k hkj]; exact hk2)
      unfold Lost at this ⊢
      rw [hst _ k hkj]
      exact this

theorem share_some {e : Env} {fs : List (List Char)} {s : Sys} {jid : Nat} {j : Job} (h : s.jobs jid = some j) (r : Nat) :
    share e fs s jid r = 2 * weight j * rank e jid fs r := by
  unfold share; rw [h]

theorem counted_some {s : Sys} {jid : Nat} {j : Job} (h : s.jobs jid = some j) :
    Counted s jid ↔ Started s jid ∧ Live j ∧ (Typed j "besteffort" ∨ Typed j "timesharing") := by
  unfold Counted
  constructor
  · rintro ⟨a, j', b, c⟩
    rw [h] at b
    rw [Option.some.inj b]
    exact ⟨a, c⟩
  · rintro ⟨a, c⟩; exact ⟨a, j, h, c⟩

theorem setJob_self (s : Sys) (jid : Nat) (j : Job) : (setJob s jid j).jobs jid = some j := by simp [setJob]

theorem setJob_other (s : Sys) (jid : Nat) (j : Job) (k : Nat) (h : k ≠ jid) : (setJob s jid j).jobs k = s.jobs k := by simp [setJob, h]

/-- The event of the start recorded in the new database. -/
theorem started_append (s s' : Sys) (jid : Nat) (evs : List (String × Nat)) (h : s'.events = s.events ++ evs) :
    Started s' jid ↔ Started s jid ∨ ("SCHEDULER_PRIORITY_UPDATED_START", jid) ∈ evs := by
  unfold Started; rw [h, List.mem_append]

theorem lost_append (s s' : Sys) (jid : Nat) (evs : List (String × Nat)) (h : s'.events = s.events ++ evs) :
    Lost s' jid ↔ Lost s jid ∨ ("DELETE_BESTEFFORT_JOB_TYPE", jid) ∈ evs := by
  unfold Lost; rw [h, List.mem_append]

theorem setState_inv (e : Env) (o : List Char) (ho : e.order = some o) (base : Nat → Int) (s : Sys) (jid : Nat) (st : String)
    (h : Inv e (levels o) base s) : Inv e (levels o) base (setState e s jid st) := by
  unfold setState
  cases hj : s.jobs jid with
  | none => exact h
  | some j =>
    dsimp only
    by_cases hc : j.state = "Terminated" ∨ j.state = "Error" ∨ j.state = st
    · rw [if_pos hc]; exact h
    · rw [if_neg hc]
      have hlive : Live j := ⟨fun x => hc (Or.inl x), fun x => hc (Or.inr (Or.inl x))⟩
      have hcs := counted_some hj
      have hself := setJob_self s jid { j with state := st }
      have hoth := setJob_other s jid { j with state := st }
      have hkept := fun x => h.kept jid x j hj
      by_cases hl : st = "toLaunch"
      · rw [if_pos hl]
        obtain ⟨u1, u2, u3⟩ := update_spec e o ho (setJob s jid { j with state := st }) jid { j with state := st } 2 "START"
        have hlive' : Live { j with state := st } := by rw [hl]; exact ⟨by simp, by simp⟩
        by_cases hg : Guard (setJob s jid { j with state := st }) jid { j with state := st } "START"
        · obtain ⟨u2, u4⟩ := u2 hg
          obtain ⟨g1, g2⟩ := hg
          have g2 : ¬ Started s jid := by
            rcases g2 with ⟨_, g⟩ | ⟨g, _⟩
            · exact g
            · exact absurd g (by decide)
          refine change (s := s) jid _ (fun k hk => by rw [u1]; exact hoth k hk) u4 (by intro x hx; split at hx <;> simp at hx; rw [hx]) ?_ ?_ h
          · intro r
            rw [now_neg (fun x => g2 (hcs.1 x).1), u2 r]
            show s.prio r + _ + 0 = _
            by_cases hne : levels o = [] ∨ e.assigned jid ≠ []
            · rw [now_pos, share_some (by rw [u1]; exact hself)]
              · ring
              · rw [counted_some (by rw [u1]; exact hself), started_append _ _ _ _ u4, if_pos hne]
                exact ⟨Or.inr (by rw [start_name]; exact List.mem_singleton.2 rfl), hlive', g1⟩
            · rw [now_neg]
              · rw [rank_none _ _ _ _ (by
                  by_cases hx : e.assigned jid = []
                  · exact hx
                  · exact absurd (Or.inr hx) hne)]
                ring
              · rw [counted_some (by rw [u1]; exact hself), started_append _ _ _ _ u4, if_neg hne]
                rintro ⟨hx | hx, _⟩
                · exact g2 hx
                · cases hx
          · intro _ j' hj'
            rw [u1, hself] at hj'
            rw [← Option.some.inj hj']
            rcases g1 with g | g
            · exact Or.inl g
            · exact Or.inr (Or.inl g)
        · rw [u3 hg]
          refine change jid [] hoth (by simp [setJob]) (by simp) ?_ ?_ h
          · intro r
            have : now e (levels o) s jid r = now e (levels o) (setJob s jid { j with state := st }) jid r := by
              by_cases hx : Counted s jid
              · rw [now_pos hx, now_pos ((counted_some hself).2 ⟨(hcs.1 hx).1, hlive', (hcs.1 hx).2.2⟩), share_some hj, share_some hself]; rfl
              · rw [now_neg hx, now_neg (fun hy => hx (hcs.2 ⟨((counted_some hself).1 hy).1, hlive, ((counted_some hself).1 hy).2.2⟩))]
            rw [this]; rfl
          · intro hx j' hj'
            rw [hself] at hj'
            rw [← Option.some.inj hj']
            exact hkept hx
      · rw [if_neg hl]
        by_cases ht : st = "Terminated" ∨ st = "Error"
        · rw [if_pos ht]
          obtain ⟨u1, u2, u3⟩ := update_spec e o ho (setJob s jid { j with state := st }) jid { j with state := st } (-2) "STOP"
          have hdead : ¬ Live { j with state := st } := by
            rintro ⟨a, b⟩
            rcases ht with ht | ht
            · exact a ht
            · exact b ht
          by_cases hg : Guard (setJob s jid { j with state := st }) jid { j with state := st } "STOP"
          · obtain ⟨u2, u4⟩ := u2 hg
            obtain ⟨g1, g2⟩ := hg
            have g2 : Started s jid := by
              rcases g2 with ⟨g, _⟩ | ⟨_, g⟩
              · exact absurd g (by decide)
              · exact g
            refine change (s := s) jid _ (fun k hk => by rw [u1]; exact hoth k hk) u4 (by intro x hx; split at hx <;> simp at hx; rw [hx]) ?_ ?_ h
            · intro r
              rw [now_pos (hcs.2 ⟨g2, hlive, g1⟩), now_neg (fun x => hdead ((counted_some (by rw [u1]; exact hself)).1 x).2.1), u2 r, share_some hj]
              show s.prio r + _ + _ = _
              have : weight { j with state := st } = weight j := rfl
              rw [this]
              ring
            · intro _ j' hj'
              rw [u1, hself] at hj'
              rw [← Option.some.inj hj']
              rcases g1 with g | g
              · exact Or.inl g
              · exact Or.inr (Or.inl g)
          · rw [u3 hg]
            refine change jid [] hoth (by simp [setJob]) (by simp) ?_ ?_ h
            · intro r
              rw [now_neg (fun x => hdead ((counted_some hself).1 x).2.1), now_neg]
              · rfl
              · intro hx
                exact hg ⟨(hcs.1 hx).2.2, Or.inr ⟨rfl, (hcs.1 hx).1⟩⟩
            · intro hx j' hj'
              rw [hself] at hj'
              rw [← Option.some.inj hj']
              exact hkept hx
        · rw [if_neg ht]
          have hlive' : Live { j with state := st } := ⟨fun x => ht (Or.inl x), fun x => ht (Or.inr x)⟩
          refine change jid [] hoth (by simp [setJob]) (by simp) ?_ ?_ h
          · intro r
            have : now e (levels o) s jid r = now e (levels o) (setJob s jid { j with state := st }) jid r := by
              by_cases hx : Counted s jid
              · rw [now_pos hx, now_pos ((counted_some hself).2 ⟨(hcs.1 hx).1, hlive', (hcs.1 hx).2.2⟩), share_some hj, share_some hself]; rfl
              · rw [now_neg hx, now_neg (fun hy => hx (hcs.2 ⟨((counted_some hself).1 hy).1, hlive, ((counted_some hself).1 hy).2.2⟩))]
            rw [this]; rfl
          · intro hx j' hj'
            rw [hself] at hj'
            rw [← Option.some.inj hj']
            exact hkept hx

theorem toggle_inv (e : Env) (o : List Char) (ho : e.order = some o) (base : Nat → Int) (s : Sys) (jid : Nat) (hleg : LegalOp s (.toggle jid))
    (h : Inv e (levels o) base s) : Inv e (levels o) base (toggle e s jid) := by
  unfold toggle
  cases hj : s.jobs jid with
  | none => exact h
  | some j =>
    dsimp only
    obtain ⟨l1, l2, l3⟩ := hleg j hj
    by_cases hr : j.state = "Running"
    · rw [if_pos hr]
      have hlive : Live j := by constructor <;> (rw [hr]; decide)
      have hcs := counted_some hj
      by_cases hb : has j "besteffort" = true
      · rw [if_pos hb]
        have hb' := (has_iff j "besteffort").1 hb
        obtain ⟨u1, u2, u3⟩ := update_spec e o ho s jid j (-2) "STOP"
        have hev : ∃ evs, (update e s jid j (-2) "STOP").events = s.events ++ evs ∧ ∀ x ∈ evs, x.2 = jid := by
          by_cases hg : Guard s jid j "STOP"
          · refine ⟨_, (u2 hg).2, ?_⟩
            intro x hx; split at hx <;> simp at hx; rw [hx]
          · exact ⟨[], by rw [u3 hg]; simp, by simp⟩
        have hp : ∀ r, (update e s jid j (-2) "STOP").prio r + now e (levels o) s jid r = s.prio r := by
          intro r
          by_cases hg : Started s jid
          · rw [((u2 ⟨Or.inl hb', Or.inr ⟨rfl, hg⟩⟩).1 r), now_pos (hcs.2 ⟨hg, hlive, Or.inl hb'⟩), share_some hj]
            ring
          · rw [u3 (by
              rintro ⟨_, ⟨a, _⟩ | ⟨_, a⟩⟩
              · exact absurd a (by decide)
              · exact hg a), now_neg (fun x => hg (hcs.1 x).1)]
            ring
        obtain ⟨evs, hev, hall⟩ := hev
        have hself := setJob_self (update e s jid j (-2) "STOP") jid { j with types := j.types.filter (fun x => x ≠ ("besteffort", none)) }
        have hnew : ¬ (Typed { j with types := j.types.filter (fun x => x ≠ ("besteffort", none)) } "besteffort" ∨
            Typed { j with types := j.types.filter (fun x => x ≠ ("besteffort", none)) } "timesharing") := by
          rintro (⟨v, hv⟩ | ⟨v, hv⟩)
          · rw [List.mem_filter] at hv
            have := l2 v hv.1
            subst this
            simp at hv
          · exact l1 ⟨v, (List.mem_filter.1 hv).1⟩
        refine change (s := s) jid (evs ++ [("DELETE_BESTEFFORT_JOB_TYPE", jid)]) ?_ ?_ ?_ ?_ ?_ h
        · intro k hk
          show (setJob _ _ _).jobs k = _
          rw [setJob_other _ _ _ _ hk, u1]
        · show (setJob _ _ _).events ++ _ = _
          rw [← List.append_assoc, ← hev]
          rfl
        · intro x hx
          rcases List.mem_append.1 hx with hx | hx
          · exact hall x hx
          · rw [List.mem_singleton.1 hx]
        · intro r
          rw [now_neg (s := { setJob _ _ _ with events := _ })]
          · exact (hp r).trans (by ring)
          · intro hx
            obtain ⟨_, j', hj', _, ht⟩ := hx
            have hj'' : (setJob (update e s jid j (-2) "STOP") jid { j with types := j.types.filter (fun x => x ≠ ("besteffort", none)) }).jobs jid = some j' := hj'
            rw [hself] at hj''
            rw [← Option.some.inj hj''] at ht
            exact hnew ht
        · intro _ _ _
          exact Or.inr (Or.inr (by unfold Lost; simp))
      · rw [if_neg hb]
        have hb' : ¬ Typed j "besteffort" := fun x => hb ((has_iff j "besteffort").2 x)
        have hns : ¬ Started s jid := by
          intro hx
          rcases h.kept jid hx j hj with a | a | a
          · exact hb' a
          · exact l1 a
          · exact l3 a
        obtain ⟨u1, u2, u3⟩ := update_spec e o ho (setJob s jid { j with types := j.types ++ [("besteffort", none)] }) jid
          { j with types := j.types ++ [("besteffort", none)] } 2 "START"
        have hty : Typed { j with types := j.types ++ [("besteffort", none)] } "besteffort" := ⟨none, by simp⟩
        obtain ⟨u2, u4⟩ := u2 ⟨Or.inl hty, Or.inl ⟨rfl, hns⟩⟩
        have hself := setJob_self s jid { j with types := j.types ++ [("besteffort", none)] }
        have hlive' : Live { j with types := j.types ++ [("besteffort", none)] } := hlive
        refine change (s := s) jid ((if levels o = [] ∨ e.assigned jid ≠ [] then [("SCHEDULER_PRIORITY_UPDATED_" ++ "START", jid)] else []) ++
          [("ADD_BESTEFFORT_JOB_TYPE", jid)]) ?_ ?_ ?_ ?_ ?_ h
        · intro k hk
          show (update _ _ _ _ _ _).jobs k = _
          rw [u1, setJob_other _ _ _ _ hk]
        · show (update _ _ _ _ _ _).events ++ _ = _
          rw [u4, ← List.append_assoc]
          rfl
        · intro x hx
          rcases List.mem_append.1 hx with hx | hx
          · split at hx <;> simp at hx; rw [hx]
          · rw [List.mem_singleton.1 hx]
        · intro r
          rw [now_neg (fun x => hns (hcs.1 x).1)]
          show (update _ _ _ _ _ _).prio r + 0 = _
          rw [u2 r]
          show s.prio r + _ + 0 = _
          have hjobs : ({ update e (setJob s jid { j with types := j.types ++ [("besteffort", none)] }) jid
              { j with types := j.types ++ [("besteffort", none)] } 2 "START" with
              events := (update e (setJob s jid { j with types := j.types ++ [("besteffort", none)] }) jid
              { j with types := j.types ++ [("besteffort", none)] } 2 "START").events ++ [("ADD_BESTEFFORT_JOB_TYPE", jid)] } : Sys).jobs jid =
              some { j with types := j.types ++ [("besteffort", none)] } := by
            show (update _ _ _ _ _ _).jobs jid = _
            rw [u1]; exact hself
          by_cases hne : levels o = [] ∨ e.assigned jid ≠ []
          · rw [now_pos, share_some hjobs]
            · ring
            · rw [counted_some hjobs]
              refine ⟨?_, hlive', Or.inl hty⟩
              unfold Started
              dsimp only
              rw [u4, if_pos hne, start_name]
              simp
          · rw [now_neg]
            · rw [rank_none _ _ _ _ (by
                by_cases hx : e.assigned jid = []
                · exact hx
                · exact absurd (Or.inr hx) hne)]
              ring
            · rw [counted_some hjobs]
              rintro ⟨hx, _⟩
              unfold Started at hx
              dsimp only at hx
              rw [u4, if_neg hne] at hx
              simp [setJob] at hx
              exact hns hx
        · intro _ j' hj'
          have : (update e (setJob s jid { j with types := j.types ++ [("besteffort", none)] }) jid
              { j with types := j.types ++ [("besteffort", none)] } 2 "START").jobs jid = some j' := hj'
          rw [u1, hself] at this
          rw [← Option.some.inj this]
          exact Or.inl hty
    · rw [if_neg hr]; exact h

theorem run_inv (e : Env) (o : List Char) (ho : e.order = some o) (base : Nat → Int) : ∀ (ops : List Op) (s : Sys), Legal e s ops →
    Inv e (levels o) base s → Inv e (levels o) base (run e s ops)
  | [], _, _, h => h
  | op :: ops, s, hl, h => by
    refine run_inv e o ho base ops (step e s op) hl.2 ?_
    cases op with
    | state j st => exact setState_inv e o ho base s j st h
    | toggle j => exact toggle_inv e o ho base s j hl.1 h

/-! ## Theorems -/

theorem inv_init (e : Env) (fs : List (List Char)) (s : Sys) (h : ∀ jid, ¬ Started s jid) : Inv e fs s.prio s :=
  ⟨fun r S hS => by
    have : S = ∅ := Finset.eq_empty_of_forall_notMem (fun k hk => h k ((hS k).1 hk).1)
    rw [this]; simp, fun jid hx => absurd hx (h jid)⟩

/-- **C79.** Whatever the order in which the jobs are launched, run, lose or get the type and end, the priority of a resource is its first value plus what the
jobs of these types that have started and not ended add to it. -/
theorem priority_exact_partial (e : Env) (o : List Char) (ho : e.order = some o) (s : Sys) (h : ∀ jid, ¬ Started s jid) (ops : List Op) (hl : Legal e s ops)
    (S : Finset Nat) (hS : ∀ jid, jid ∈ S ↔ Counted (run e s ops) jid) (r : Nat) :
    (run e s ops).prio r = s.prio r + ∑ jid ∈ S, share e (levels o) (run e s ops) jid r :=
  (run_inv e o ho s.prio ops s hl (inv_init e (levels o) s h)).eq r S hS

/-- **C79.** When these jobs have ended the priorities are back to their first values. -/
theorem priority_restored_partial (e : Env) (o : List Char) (ho : e.order = some o) (s : Sys) (h : ∀ jid, ¬ Started s jid) (ops : List Op) (hl : Legal e s ops)
    (hend : ∀ jid j, (run e s ops).jobs jid = some j → (Typed j "besteffort" ∨ Typed j "timesharing") → j.state = "Terminated" ∨ j.state = "Error") (r : Nat) :
    (run e s ops).prio r = s.prio r := by
  rw [priority_exact_partial e o ho s h ops hl ∅ (by
    intro jid
    constructor
    · intro x; cases x
    · rintro ⟨_, j, hj, ⟨l1, l2⟩, ht⟩
      rcases hend jid j hj ht with x | x
      · exact absurd x l1
      · exact absurd x l2) r]
  simp

/-- **C79.** A job of these types with resources counts as soon as it is launched. -/
theorem launch_counts (e : Env) (o : List Char) (ho : e.order = some o) (s : Sys) (jid : Nat) (j : Job) (hj : s.jobs jid = some j) (hl : Live j)
    (hs : j.state ≠ "toLaunch") (ht : Typed j "besteffort" ∨ Typed j "timesharing") (ha : e.assigned jid ≠ []) :
    Counted (setState e s jid "toLaunch") jid := by
  unfold setState
  rw [hj]
  dsimp only
  rw [if_neg (by rintro (x | x | x); exacts [hl.1 x, hl.2 x, hs x]), if_pos rfl]
  obtain ⟨u1, u2, u3⟩ := update_spec e o ho (setJob s jid { j with state := "toLaunch" }) jid { j with state := "toLaunch" } 2 "START"
  have hself := setJob_self s jid { j with state := "toLaunch" }
  have hlive' : Live { j with state := "toLaunch" } := ⟨by simp, by simp⟩
  by_cases hg : Started s jid
  · rw [u3 (by
      rintro ⟨_, ⟨_, a⟩ | ⟨a, _⟩⟩
      · exact a hg
      · exact absurd a (by decide)), counted_some hself]
    exact ⟨hg, hlive', ht⟩
  · obtain ⟨_, u4⟩ := u2 ⟨ht, Or.inl ⟨rfl, hg⟩⟩
    rw [counted_some (by rw [u1]; exact hself)]
    refine ⟨?_, hlive', ht⟩
    rw [started_append _ _ _ _ u4, if_pos (Or.inr ha), start_name]
    exact Or.inr (List.mem_singleton.2 rfl)

theorem update_none (e : Env) (ho : e.order = none) (s : Sys) (jid : Nat) (j : Job) (v : Int) (st : String) : update e s jid j v st = s := by
  unfold update; rw [ho]

/-- **C79.** Without configuration nothing changes. -/
theorem not_configured (e : Env) (ho : e.order = none) : ∀ (ops : List Op) (s : Sys), (run e s ops).prio = s.prio
  | [], _ => rfl
  | op :: ops, s => by
    show (run e (step e s op) ops).prio = _
    rw [not_configured e ho ops]
    cases op with
    | state jid st =>
      show (setState e s jid st).prio = _
      unfold setState
      cases s.jobs jid with
      | none => rfl
      | some j =>
        dsimp only
        rw [update_none e ho, update_none e ho]
        split
        · rfl
        · split
          · rfl
          · split <;> rfl
    | toggle jid =>
      show (toggle e s jid).prio = _
      unfold toggle
      cases s.jobs jid with
      | none => rfl
      | some j =>
        dsimp only
        rw [update_none e ho, update_none e ho]
        split
        · split <;> rfl
        · rfl

/-- **C79.** Only an administrator changes the type. -/
theorem type_protected (e : Env) (s : Sys) (user : String) (up : Bool) (ids : List Nat) (h1 : user ≠ "oar") (h2 : user ≠ "root") :
    oardelBesteffort e s user up ids = (s, [8], true) := by
  unfold oardelBesteffort; rw [if_pos ⟨h1, h2⟩]

theorem update_jobs (e : Env) (s : Sys) (jid : Nat) (j : Job) (v : Int) (st : String) : (update e s jid j v st).jobs = s.jobs := by
  cases ho : e.order with
  | none => rw [update_none e ho]
  | some o => exact (update_spec e o ho s jid j v st).1

theorem toggle_exists (e : Env) (s : Sys) (jid k : Nat) : (toggle e s jid).jobs k = none ↔ s.jobs k = none := by
  unfold toggle
  cases hj : s.jobs jid with
  | none => exact Iff.rfl
  | some j =>
    dsimp only
    by_cases hr : j.state = "Running"
    · rw [if_pos hr]
      by_cases hb : has j "besteffort" = true
      · rw [if_pos hb]
        by_cases hk : k = jid
        · subst hk; simp [setJob, hj]
        · simp [setJob, hk, update_jobs]
      · rw [if_neg hb]
        dsimp only
        rw [update_jobs]
        by_cases hk : k = jid
        · subst hk; simp [setJob, hj]
        · simp [setJob, hk]
    · rw [if_neg hr]

theorem toggleLoop_stop (e : Env) : ∀ (a : List Nat) (s : Sys) (x : Nat) (b : List Nat), (∀ k ∈ a, s.jobs k ≠ none) → s.jobs x = none →
    toggleLoop e s (a ++ x :: b) = (a.foldl (toggle e) s, false)
  | [], s, x, b, _, hx => by rw [List.nil_append, toggleLoop, if_pos hx]; rfl
  | k :: a, s, x, b, ha, hx => by
    rw [List.cons_append, toggleLoop, if_neg (ha k List.mem_cons_self),
      toggleLoop_stop e a (toggle e s k) x b (fun y hy h => ha y (List.mem_cons_of_mem _ hy) ((toggle_exists e s k y).1 h)) ((toggle_exists e s k x).2 hx)]
    rfl

/-- C79 (violated). An unknown job stops the command with an exception: the jobs before it have been changed without the server being told, those after it are
left. -/
theorem unknown_raises_violated (e : Env) (s : Sys) (up : Bool) (a b : List Nat) (x : Nat) (ha : ∀ k ∈ a, s.jobs k ≠ none) (hx : s.jobs x = none) :
    oardelBesteffort e s "root" up (a ++ x :: b) = (a.foldl (toggle e) s, [], false) := by
  unfold oardelBesteffort
  rw [if_neg (by simp), toggleLoop_stop e a s x b ha hx]
  simp

/-! ## Levels -/

theorem split_plain (c : Char) : ∀ w : List Char, c ∉ w → split c w = [w]
  | [], _ => rfl
  | x :: w, h => by
    rw [split, if_neg (fun hx : x = c => h (by rw [hx]; exact List.mem_cons_self)), split_plain c w (fun hx => h (List.mem_cons_of_mem _ hx))]

theorem split_append (c : Char) (v : List Char) : ∀ w : List Char, c ∉ w → split c (w ++ c :: v) = w :: split c v
  | [], _ => by rw [List.nil_append, split, if_pos rfl]
  | x :: w, h => by
    rw [List.cons_append, split, if_neg (fun hx : x = c => h (by rw [hx]; exact List.mem_cons_self)), split_append c v w (fun hx => h (List.mem_cons_of_mem _ hx))]

/-- The text of the configuration with a slash before each name. -/
def written (names : List (List Char)) : List Char := names.flatMap (fun n => '/' :: n)

theorem split_written : ∀ names : List (List Char), (∀ n ∈ names, '/' ∉ n) → split '/' (written names) = [] :: names
  | [], _ => rfl
  | [n], h => by
    have : written [n] = '/' :: n := by simp [written]
    rw [this, split, if_pos rfl, split_plain _ _ (h n (by simp))]
  | n :: m :: ns, h => by
    have e1 : written (n :: m :: ns) = '/' :: (n ++ '/' :: (m ++ written ns)) := by simp [written]
    have e2 : written (m :: ns) = '/' :: (m ++ written ns) := by simp [written]
    have ih := split_written (m :: ns) (fun x hx => h x (List.mem_cons_of_mem _ hx))
    rw [e2, split, if_pos rfl] at ih
    rw [e1, split, if_pos rfl, split_append _ _ _ (h n (by simp)), (List.cons.inj ih).2]

/-- **C79.** The levels are the names of the configuration, in order. -/
theorem levels_written (names : List (List Char)) (h : ∀ n ∈ names, n ≠ [] ∧ '/' ∉ n ∧ n ≠ txt "resource_id") : levels (written names) = names := by
  unfold levels
  rw [split_written names (fun n hn => (h n hn).2.1), List.filter_cons_of_neg (by simp), List.filter_eq_self.2 (fun n hn => by simpa using (h n hn).1)]
  conv => rhs; rw [← List.map_id names]
  exact List.map_congr_left (fun n hn => by rw [if_neg (h n hn).2.2]; rfl)

/-! ## Violations and examples -/

/-- Two resources of the same node and one of another. -/
def exEnv : Env := ⟨some (txt "/network_address/resource_id"),
  fun f r => if f = txt "network_address" then some (if r ≤ 2 then "n1" else "n2") else some (toString r), fun j => if j = 1 then [1] else [3]⟩

/-- A best-effort job. -/
def exSys (types : List (String × Option String)) : Sys := ⟨fun _ => 0, fun k => if k = 1 then some ⟨"Waiting", types⟩ else none, []⟩

/-- C79 (violated). A job that loses the type, gets it back and ends has its share subtracted twice. -/
theorem regained_violated :
    (run exEnv (exSys [("besteffort", none)]) [.state 1 "toLaunch", .state 1 "Running", .toggle 1, .toggle 1, .state 1 "Terminated"]).prio 1 = -60 ∧
    (exSys [("besteffort", none)]).prio 1 = 0 := by decide +kernel

/-- C79 (violated). A timesharing best-effort job that loses the best-effort type has its share subtracted twice. -/
theorem timesharing_violated :
    (run exEnv (exSys [("besteffort", none), ("timesharing", some "user,*")]) [.state 1 "toLaunch", .state 1 "Running", .toggle 1, .state 1 "Terminated"]).prio 1 = -6 := by
  decide +kernel

/-- C79 (violated). A type written with a value is never removed: the share is subtracted at each request, and the job stays best-effort. -/
theorem valued_type_violated :
    (run exEnv (exSys [("besteffort", some "1")]) [.state 1 "toLaunch", .state 1 "Running", .toggle 1, .toggle 1, .toggle 1]).prio 1 = -120 ∧
    (run exEnv (exSys [("besteffort", some "1")]) [.state 1 "toLaunch", .state 1 "Running", .toggle 1, .toggle 1, .toggle 1]).jobs 1 =
      some ⟨"Running", [("besteffort", some "1")]⟩ := by decide +kernel

-- While the job runs its resource has 20 + 40, the other resource of the node 20, the other node nothing; at the end all is back.
example : (fun s => (s.prio 1, s.prio 2, s.prio 3)) (run exEnv (exSys [("besteffort", none)]) [.state 1 "toLaunch", .state 1 "Running"]) = (60, 20, 0) := by
  decide +kernel
example : (fun s => (s.prio 1, s.prio 2, s.prio 3))
    (run exEnv (exSys [("besteffort", none)]) [.state 1 "toLaunch", .state 1 "Running", .toggle 1, .state 1 "Terminated"]) = (0, 0, 0) := by
  decide +kernel

theorem exSys_fresh (types : List (String × Option String)) : ∀ jid, ¬ Started (exSys types) jid := fun _ h => by cases h

-- The history of the second example is legal.
example : Legal exEnv (exSys [("besteffort", none)]) [.state 1 "toLaunch", .state 1 "Running", .toggle 1, .state 1 "Terminated"] := by
  refine ⟨trivial, trivial, ?_, trivial, trivial⟩
  intro j hj
  have e1 : (step exEnv (step exEnv (exSys [("besteffort", none)]) (.state 1 "toLaunch")) (.state 1 "Running")).jobs 1 =
      some ⟨"Running", [("besteffort", none)]⟩ := by decide +kernel
  have e2 : ("DELETE_BESTEFFORT_JOB_TYPE", 1) ∉
      (step exEnv (step exEnv (exSys [("besteffort", none)]) (.state 1 "toLaunch")) (.state 1 "Running")).events := by decide +kernel
  rw [e1] at hj
  rw [← Option.some.inj hj]
  refine ⟨?_, ?_, e2⟩
  · rintro ⟨v, hv⟩; simp at hv
  · intro v hv; simpa using hv

end Oar.Priority
