import Verif.Hierarchy

/-!
# C65: the estimation of the resources at submission

`estimate_job_nb_resources` (`oar/lib/submission.py`), which decides whether a request is accepted.
-/

namespace Oar.Estimate

open Oar.Hierarchy

/-- A group of a request: its condition, if any, and its levels. -/
structure Rq where
  cond : Option String
  levels : List (String × Int)

/-- What the resources are: all of them, those of the type by default, and those satisfying a condition of a group
together with the properties of the job. -/
structure Platform where
  all : ProcSet
  default : ProcSet
  sel : String → ProcSet

/-- The constraints used by the estimation (oar/lib/submission.py:817-853), for a job without properties or whose
properties are part of the conditions: without condition, all the resources. -/
def estGroup (pf : Platform) (r : Rq) : Group := ⟨r.levels, match r.cond with
  | none => pf.all
  | some c => pf.sel c⟩

/-- The constraints used by the schedulers (oar/lib/job_handling.py:341-371): without condition, the resources by
default. -/
def schedGroup (pf : Platform) (r : Rq) : Group := ⟨r.levels, match r.cond with
  | none => pf.default
  | some c => pf.sel c⟩

/-- The number of resources of an alternative (oar/lib/submission.py:811-884): groups which are not found count for
nothing; `none`: an unknown level (code -3) or an exception. -/
def count (pf : Platform) (hy : Hy) : List Rq → Option Nat
  | [] => some 0
  | r :: rs => match findGroup pf.all hy (estGroup pf r), count pf hy rs with
    | some res, some n => some (res.card + n)
    | _, _ => none

/-- Models `estimate_job_nb_resources` (oar/lib/submission.py:793-898): `some true` is the acceptance (code 0), `some
false` the rejection (code -5). -/
def estimate (pf : Platform) (hy : Hy) : List (List Rq) → Option Bool
  | [] => some false
  | alt :: alts => match count pf hy alt, estimate pf hy alts with
    | some n, some b => some (decide (0 < n) || b)
    | _, _ => none

/-! ## Specification -/

/-- A request can run on the idle platform: an alternative for which the schedulers find resources. -/
def CanRun (pf : Platform) (hy : Hy) (alts : List (List Rq)) : Prop :=
  ∃ alt ∈ alts, ∃ res, findJob pf.all (alt.map (schedGroup pf)) hy = some res ∧ res ≠ ∅

/-! ## Proofs -/

theorem estimate_true (pf : Platform) (hy : Hy) (alts : List (List Rq)) (b : Bool) (h : estimate pf hy alts = some b) :
    b = true ↔ ∃ alt ∈ alts, ∃ n, count pf hy alt = some n ∧ 0 < n := by
  induction alts generalizing b with
  | nil => simp [estimate] at h; subst h; simp
  | cons alt alts ih =>
    unfold estimate at h
    split at h
    · rename_i n b' h1 h2
      have h := Option.some.inj h
      subst h
      rw [Bool.or_eq_true, decide_eq_true_eq, ih b' h2]
      constructor
      · rintro (h | ⟨a, ha, h⟩)
        · exact ⟨alt, by simp, n, h1, h⟩
        · exact ⟨a, List.mem_cons_of_mem _ ha, h⟩
      · rintro ⟨a, ha, m, hm, hp⟩
        rcases List.mem_cons.1 ha with rfl | ha
        · rw [h1] at hm
          have := Option.some.inj hm
          left; omega
        · exact Or.inr ⟨a, ha, m, hm, hp⟩
    · cases h

theorem count_pos (pf : Platform) (hy : Hy) (rs : List Rq) (n : Nat) (h : count pf hy rs = some n) :
    0 < n ↔ ∃ r ∈ rs, ∃ res, findGroup pf.all hy (estGroup pf r) = some res ∧ res ≠ ∅ := by
  induction rs generalizing n with
  | nil => simp [count] at h; subst h; simp
  | cons r rs ih =>
    unfold count at h
    split at h
    · rename_i res m h1 h2
      have h := Option.some.inj h
      subst h
      constructor
      · intro hp
        by_cases hr : res = ∅
        · subst hr
          obtain ⟨r', hr', h⟩ := (ih m h2).1 (by simpa using hp)
          exact ⟨r', List.mem_cons_of_mem _ hr', h⟩
        · exact ⟨r, by simp, res, h1, hr⟩
      · rintro ⟨r', hr', res', h, hne⟩
        rcases List.mem_cons.1 hr' with rfl | hr'
        · rw [h1] at h
          have h := Option.some.inj h
          subst h
          have := Finset.card_pos.2 (Finset.nonempty_iff_ne_empty.2 hne)
          omega
        · have := (ih m h2).2 ⟨r', hr', res', h, hne⟩
          omega
    · cases h

/-- C65, exactly: a request is accepted just when one group of one alternative can be found on the idle platform. -/
theorem accepted_iff (pf : Platform) (hy : Hy) (alts : List (List Rq)) (b : Bool) (h : estimate pf hy alts = some b) :
    b = true ↔ ∃ alt ∈ alts, ∃ r ∈ alt, ∃ res, findGroup pf.all hy (estGroup pf r) = some res ∧ res ≠ ∅ := by
  rw [estimate_true pf hy alts b h]
  have hc : ∀ (alts : List (List Rq)) (b : Bool), estimate pf hy alts = some b → ∀ alt ∈ alts, ∃ n, count pf hy alt = some n := by
    intro alts
    induction alts with
    | nil => intro _ _ alt ha; cases ha
    | cons a alts ih =>
      intro b h alt ha
      unfold estimate at h
      split at h
      · rename_i n b' h1 h2
        rcases List.mem_cons.1 ha with rfl | ha
        · exact ⟨n, h1⟩
        · exact ih b' h2 alt ha
      · cases h
  constructor
  · rintro ⟨alt, ha, n, hn, hp⟩
    exact ⟨alt, ha, (count_pos pf hy alt n hn).1 hp⟩
  · rintro ⟨alt, ha, hr⟩
    obtain ⟨n, hn⟩ := hc alts b h alt ha
    exact ⟨alt, ha, n, hn, (count_pos pf hy alt n hn).2 hr⟩

theorem findJobLoop_all (itvs : ProcSet) (hy : Hy) (gs : List Group) (r res : ProcSet) (h : findJobLoop itvs hy gs r = some res) (hne : res ≠ ∅) :
    ∀ g ∈ gs, ∃ x, findGroup itvs hy g = some x ∧ x ≠ ∅ := by
  induction gs generalizing r with
  | nil => intro g hg; cases hg
  | cons a gs ih =>
    unfold findJobLoop at h
    cases ha : findGroup itvs hy a with
    | none => rw [ha] at h; cases h
    | some x =>
      rw [ha] at h
      dsimp only at h
      by_cases hx : x.card ≠ 0
      · rw [if_pos hx] at h
        intro g hg
        rcases List.mem_cons.1 hg with rfl | hg
        · refine ⟨x, ha, ?_⟩
          rintro rfl
          exact hx rfl
        · exact ih _ h g hg
      · rw [if_neg hx] at h
        exact absurd (Option.some.inj h).symm hne

/-- C65: on a platform whose resources are all of the type by default, a request which can run on the idle platform is
not rejected. -/
theorem runnable_accepted_partial (pf : Platform) (hd : pf.default = pf.all) (hy : Hy) (alts : List (List Rq)) (hne : ∀ alt ∈ alts, alt ≠ [])
    (b : Bool) (h : estimate pf hy alts = some b) (hr : CanRun pf hy alts) : b = true := by
  rw [accepted_iff pf hy alts b h]
  obtain ⟨alt, ha, res, hres, hn⟩ := hr
  cases alt with
  | nil => exact absurd rfl (hne [] ha)
  | cons r rs =>
    obtain ⟨x, hx, hxn⟩ := findJobLoop_all _ _ _ _ _ hres hn (schedGroup pf r) (by simp)
    refine ⟨r :: rs, ha, r, by simp, x, ?_, hxn⟩
    have : estGroup pf r = schedGroup pf r := by unfold estGroup schedGroup; rw [hd]
    rw [this]; exact hx

/-- C65: on such a platform, an accepted request whose alternatives have a single group can run on the idle platform. -/
theorem accepted_runnable_partial (pf : Platform) (hd : pf.default = pf.all) (hy : Hy) (alts : List (List Rq)) (h1 : ∀ alt ∈ alts, alt.length = 1)
    (h : estimate pf hy alts = some true) : CanRun pf hy alts := by
  obtain ⟨alt, ha, r, hr, res, hres, hn⟩ := (accepted_iff pf hy alts true h).1 rfl
  have := h1 alt ha
  obtain ⟨r', rfl⟩ := List.length_eq_one_iff.1 this
  have := List.mem_singleton.1 hr
  subst this
  refine ⟨[r], ha, ∅ ∪ res, ?_, by simpa using hn⟩
  have he : estGroup pf r = schedGroup pf r := by unfold estGroup schedGroup; rw [hd]
  rw [he] at hres
  unfold findJob
  simp only [List.map_cons, List.map_nil, findJobLoop, hres]
  rw [if_pos (by simpa using hn)]

/-! ## Examples -/

/-- Two hosts of two cores; the cores of `gpu` are those of the second host. -/
def exPf : Platform := ⟨{1, 2, 3, 4}, {1, 2, 3, 4}, fun c => if c = "gpu" then {3, 4} else ∅⟩
def exHy : Hy := [("host", [{1, 2}, {3, 4}]), ("core", [{1}, {2}, {3}, {4}])]

example : estimate exPf exHy [[⟨some "gpu", [("host", 1), ("core", 2)]⟩]] = some true := by decide +kernel
example : estimate exPf exHy [[⟨some "gpu", [("host", 2)]⟩]] = some false := by decide +kernel

/-- C65 (violated): a request of two groups, one of which can never be found, is accepted although it can never run. -/
theorem accepted_never_runs_violated :
    estimate exPf exHy [[⟨none, [("host", 1)]⟩, ⟨some "gpu", [("host", 2)]⟩]] = some true ∧
      ¬ CanRun exPf exHy [[⟨none, [("host", 1)]⟩, ⟨some "gpu", [("host", 2)]⟩]] := by
  refine ⟨by decide +kernel, ?_⟩
  rintro ⟨alt, ha, res, h, hne⟩
  have := List.mem_singleton.1 ha
  subst this
  have e : findJob exPf.all ([⟨none, [("host", 1)]⟩, ⟨some "gpu", [("host", 2)]⟩].map (schedGroup exPf)) exHy = some ∅ := by decide +kernel
  rw [e] at h
  exact hne (Option.some.inj h).symm

/-- C65 (violated): with resources of another type, a request without condition is estimated on all the resources and
accepted although the schedulers only give it those by default. -/
theorem accepted_other_type_violated :
    let pf : Platform := ⟨{1, 2, 3, 4}, {1, 2}, fun _ => ∅⟩
    estimate pf exHy [[⟨none, [("host", 2)]⟩]] = some true ∧ ¬ CanRun pf exHy [[⟨none, [("host", 2)]⟩]] := by
  dsimp only
  refine ⟨by decide +kernel, ?_⟩
  rintro ⟨alt, ha, res, h, hne⟩
  have := List.mem_singleton.1 ha
  subst this
  have e : findJob ({1, 2, 3, 4} : ProcSet) ([⟨none, [("host", 2)]⟩].map (schedGroup ⟨{1, 2, 3, 4}, {1, 2}, fun _ => ∅⟩)) exHy = some ∅ := by decide +kernel
  rw [e] at h
  exact hne (Option.some.inj h).symm

end Oar.Estimate
