import Verif.Walltime

/-!
# C21, C22 : walltime changes
-/

namespace Oar.Walltime

/-! ## C21 : requests -/

/-- The user may act on the job. -/
def Owner (job : WJob) (user : String) : Prop := user = job.user ∨ user = "root" ∨ user = "oar"

/-- Administrators. -/
def Admin (user : String) : Prop := user = "root" ∨ user = "oar"

/-- The user may use a feature: it is open to all, or the user is an administrator or in its list. -/
def Allowed (users : Option (List String)) (user : String) : Prop := users = none ∨ Admin user ∨ ∃ l, users = some l ∧ user ∈ l

/-- The users allowed to force or to delay: everybody without list, else the administrators and those of the list. -/
theorem permitted_iff (users : Option (List String)) (user : String) : permitted users user = true ↔ Allowed users user := by
  unfold permitted Allowed Admin
  cases users with
  | none => simp
  | some l => simp [or_assoc]

/-- **C21.** A request is accepted only if the feature is enabled, the job exists, is running and belongs to the user (or
the user is an administrator), its walltime is large enough, forcing and delaying are permitted, and a container is not
reduced; a refused request changes nothing. -/
theorem request_authorised (conf : Conf) (job : Option WJob) (user : String) (asked : Option Asked) (force delay : Bool)
    (now : Int) (row : Option Wtc) :
    ((request conf job user asked force delay now row).1 ≠ .accepted → (request conf job user asked force delay now row).2 = row) ∧
    ((request conf job user asked force delay now row).1 = .accepted →
      conf.enabled = some "YES" ∧ ∃ j a, job = some j ∧ asked = some a ∧ Owner j user ∧ j.state = "Running" ∧
        conf.minForChange ≤ j.walltime ∧ (force = true → Allowed conf.forceUsers user) ∧
        (delay = true → Allowed conf.delayUsers user) ∧ (j.container = true → 0 ≤ relative a j.walltime)) := by
  rw [← permitted_iff, ← permitted_iff]
  unfold request
  split
  · simp
  rename_i h0
  split
  · simp
  rename_i j
  split
  · simp
  rename_i h1
  split
  · simp
  rename_i h2
  split
  · simp
  rename_i a
  split
  · simp
  rename_i h3
  split
  · simp
  rename_i h4
  split
  · simp
  rename_i h5
  split
  · simp
  rename_i h6
  have hown : Owner j user := by
    unfold Owner
    by_cases e1 : user = j.user
    · exact Or.inl e1
    · by_cases e2 : user = "root"
      · exact Or.inr (Or.inl e2)
      · by_cases e3 : user = "oar"
        · exact Or.inr (Or.inr e3)
        · exact absurd ⟨fun e => e1 e.symm, e2, e3⟩ h1
  have main : conf.enabled = some "YES" ∧ ∃ j' a', some j = some j' ∧ some a = some a' ∧ Owner j' user ∧ j'.state = "Running" ∧
        conf.minForChange ≤ j'.walltime ∧ (force = true → permitted conf.forceUsers user = true) ∧
        (delay = true → permitted conf.delayUsers user = true) ∧ (j'.container = true → 0 ≤ relative a' j'.walltime) := by
    refine ⟨by simpa using h0, j, a, rfl, rfl, hown, by simpa using h2, by omega, ?_, ?_, ?_⟩
    · intro hf
      by_contra hp
      exact h3 ⟨hf, by simpa using hp⟩
    · intro hf
      by_contra hp
      exact h4 ⟨hf, by simpa using hp⟩
    · intro hc
      by_contra hp
      exact h6 ⟨hc, by omega⟩
  dsimp only
  split
  · split
    · simp
    · exact ⟨fun h => absurd rfl h, fun _ => main⟩
  · split
    · simp
    · exact ⟨fun h => absurd rfl h, fun _ => main⟩

/-- **C21.** An accepted request records the change asked, limited so that the job does not end before now; the
change plus what is recorded as already granted does not exceed the configured maximum (unless there is none, or the user
is an administrator). -/
theorem request_bounded (conf : Conf) (job : WJob) (user : String) (a : Asked) (force delay : Bool) (now : Int)
    (row : Option Wtc) (h : (request conf (some job) user (some a) force delay now row).1 = .accepted) :
    ∃ r, (request conf (some job) user (some a) force delay now row).2 = some r ∧
      r.pending = max (relative a job.walltime) (now - (job.start + job.walltime + job.suspended)) ∧
      now ≤ job.start + (job.walltime + r.pending) + job.suspended ∧
      (r.force = true → force = true ∧ 0 < r.pending) ∧ (r.delay = true → delay = true ∧ 0 < r.pending) ∧
      (Admin user ∨ conf.maxIncrease job.walltime = -1 ∨
        (row.map Wtc.granted).getD 0 + r.pending ≤ conf.maxIncrease job.walltime) := by
  have hclamp : ∀ c, clamp job now c = max c (now - (job.start + job.walltime + job.suspended)) := by
    intro c; unfold clamp; dsimp only; split <;> omega
  unfold request at h ⊢
  split at h
  · simp at h
  rename_i h0
  rw [if_neg h0]
  dsimp only at h ⊢
  split at h
  · simp at h
  rename_i h1
  rw [if_neg h1]
  split at h
  · simp at h
  rename_i h2
  rw [if_neg h2]
  split at h
  · simp at h
  rename_i h3
  rw [if_neg h3]
  split at h
  · simp at h
  rename_i h4
  rw [if_neg h4]
  split at h
  · simp at h
  rename_i h5
  rw [if_neg h5]
  split at h
  · simp at h
  rename_i h6
  rw [if_neg h6]
  have hbound : ∀ g : Int, ¬ (conf.maxIncrease job.walltime ≠ -1 ∧
      g + clamp job now (relative a job.walltime) > conf.maxIncrease job.walltime ∧ user ≠ "root" ∧ user ≠ "oar") →
      (Admin user ∨ conf.maxIncrease job.walltime = -1 ∨
        g + clamp job now (relative a job.walltime) ≤ conf.maxIncrease job.walltime) := by
    intro g hn
    unfold Admin
    by_cases e1 : user = "root"
    · exact Or.inl (Or.inl e1)
    · by_cases e2 : user = "oar"
      · exact Or.inl (Or.inr e2)
      · by_cases e3 : conf.maxIncrease job.walltime = -1
        · exact Or.inr (Or.inl e3)
        · right; right
          by_contra hgt
          exact hn ⟨e3, by omega, e1, e2⟩
  cases row with
  | none =>
    dsimp only at h ⊢
    split at h
    · simp at h
    rename_i h7
    rw [if_neg h7]
    refine ⟨_, rfl, hclamp _, ?_, ?_, ?_, ?_⟩
    · dsimp only; rw [hclamp]; omega
    · simp
    · simp
    · have := hbound 0 (by simpa using h7)
      simpa using this
  | some r =>
    dsimp only at h ⊢
    split at h
    · simp at h
    rename_i h7
    rw [if_neg h7]
    refine ⟨_, rfl, hclamp _, ?_, ?_, ?_, ?_⟩
    · dsimp only [updateRow]; rw [hclamp]; omega
    · simp [updateRow]
    · simp [updateRow]
    · exact hbound r.granted h7

def conf0 : Conf := ⟨some "YES", fun _ => 100, 0, some [], some []⟩
def job0 : WJob := ⟨"john", "Running", 1000, 3600, 0, false⟩
def round0 : Round := ⟨2000, 0, 0, 0, none, 60, []⟩

-- an accepted request, a forced one refused, another user refused
example : (request conf0 (some job0) "john" (some ⟨1, 100⟩) false false 2000 none) =
    (.accepted, some ⟨100, false, false, 0, 0, 0⟩) := by decide
example : (request conf0 (some job0) "john" (some ⟨1, 100⟩) true false 2000 none).1 = .forbidden := by decide
example : (request conf0 (some job0) "mary" (some ⟨1, 100⟩) false false 2000 none).1 = .forbidden := by decide
-- a reduction stops at now
example : (request conf0 (some job0) "john" (some ⟨-1, 3000⟩) false false 2000 none).2 = some ⟨-2600, false, false, 0, 0, 0⟩ := by
  decide

/-! ## C22 : processing -/

theorem endLoop_le {sec : Int} : ∀ (ss : List Int) (first : Int), first ≠ 0 → (∀ s ∈ ss, 0 < s - sec - 1) →
    endLoop sec ss first ≤ first ∧ ∀ s ∈ ss, endLoop sec ss first + sec ≤ s
  | [], first, _, _ => ⟨Int.le_refl _, by simp⟩
  | s :: ss, first, h0, hs => by
    have hs0 := hs s (by simp)
    unfold endLoop
    by_cases hc : first > s - sec
    · rw [if_pos (Or.inr hc)]
      obtain ⟨i1, i2⟩ := endLoop_le ss (s - sec - 1) (by omega) (fun x hx => hs x (by simp [hx]))
      refine ⟨by omega, fun x hx => ?_⟩
      rcases List.mem_cons.1 hx with rfl | hx
      · omega
      · exact i2 x hx
    · rw [if_neg (by omega)]
      obtain ⟨i1, i2⟩ := endLoop_le ss first h0 (fun x hx => hs x (by simp [hx]))
      refine ⟨i1, fun x hx => ?_⟩
      rcases List.mem_cons.1 hx with rfl | hx
      · omega
      · exact i2 x hx

/-- The end date computed is at most the end of the interval, and leaves the security time before every predicted job that
matters and starts after the beginning of the interval. -/
theorem possibleEnd_spec (from_ to_ sec : Int) (rids : Finset Nat) (d : Bool) (gantt : List Pred) (hpos : 0 < to_)
    (_hsec : 0 ≤ sec) (hfrom : sec < from_) :
    possibleEnd from_ to_ rids sec d gantt ≤ to_ ∧
    ∀ p ∈ gantt, p.matters rids d → from_ < p.start → possibleEnd from_ to_ rids sec d gantt + sec ≤ p.start := by
  unfold possibleEnd
  obtain ⟨h1, h2⟩ := endLoop_le (sec := sec) ((gantt.filter (fun p : Pred => decide (p.matters rids d) && decide (p.start > from_) &&
    decide (p.start ≤ to_ + sec))).map Pred.start) to_ (by omega) (by
      intro s hs
      obtain ⟨p, hp, rfl⟩ := List.mem_map.1 hs
      have := (List.mem_filter.1 hp).2
      simp only [Bool.and_eq_true, decide_eq_true_eq] at this
      omega)
  refine ⟨h1, fun p hp hm hlt => ?_⟩
  by_cases hle : p.start ≤ to_ + sec
  · refine h2 p.start (List.mem_map_of_mem (f := Pred.start) (List.mem_filter.2 ⟨hp, ?_⟩))
    simp [hm, hlt, hle]
  · omega

/-- The date at which the job ends. -/
def Proc.end_ (p : Proc) (r : Round) : Int := p.start + p.walltime + r.suspended

/-- A round for a job whose times are after the epoch (plus the security time). -/
def RoundOk (r : Round) (p : Proc) : Prop := 0 ≤ r.sec ∧ r.sec < p.end_ r ∧ ∀ e, r.containerEnd = some e → 0 < e

theorem fitUp_spec {r : Round} {p : Proc} {f : Int} (hok : RoundOk r p) (hpend : 0 < p.row.pending)
    (h : fitUp r p = some f) :
    0 < f ∧ f ≤ p.row.pending ∧ (∀ e, r.containerEnd = some e → p.end_ r + f ≤ e) ∧
    ∀ q ∈ r.gantt, q.matters p.rids p.row.delay → p.end_ r < q.start → p.end_ r + f + r.sec ≤ q.start := by
  unfold fitUp at h
  dsimp only at h
  generalize hfit : (if p.row.force = false ∧ r.increment > 0 ∧ r.increment < p.row.pending then r.increment
    else p.row.pending) = fit at h
  split at h
  · simp at h
  split at h
  · simp at h
  rename_i hpos
  simp only [Option.some.injEq] at h
  subst h
  have hf1 : 0 < fit ∧ fit ≤ p.row.pending := by subst hfit; split <;> omega
  have hto : searchTo r (p.start + p.walltime + r.suspended) fit ≤ p.start + p.walltime + r.suspended + fit ∧
      (∀ e, r.containerEnd = some e → searchTo r (p.start + p.walltime + r.suspended) fit ≤ e) ∧
      0 < searchTo r (p.start + p.walltime + r.suspended) fit := by
    have h1 := hok.1
    have h2 := hok.2.1
    have h3 := hok.2.2
    unfold Proc.end_ at h2
    unfold searchTo
    cases hce : r.containerEnd with
    | none => simp; omega
    | some e =>
      have := h3 e hce
      dsimp only
      split
      · refine ⟨by omega, ?_, by omega⟩
        intro e' he'; simp at he'; omega
      · refine ⟨by omega, ?_, by omega⟩
        intro e' he'; simp at he'; omega
  obtain ⟨g1, g2⟩ := possibleEnd_spec (p.start + p.walltime + r.suspended)
    (searchTo r (p.start + p.walltime + r.suspended) fit) r.sec p.rids p.row.delay r.gantt hto.2.2 hok.1 hok.2.1
  unfold Proc.end_
  refine ⟨by omega, by omega, fun e he => ?_, fun q hq hm hlt => ?_⟩
  · have := hto.2.1 e he; omega
  · have := g2 q hq hm hlt; omega

/-- **C22 (one round).** When a round changes something it moves `f` seconds: the walltime and the granted time increase by
`f`, the pending time decreases by `f`. For an increase `0 < f ≤ pending`, the job still ends before its container does
and leaves the security time before the next predicted job on its resources. For a reduction, of a job that has not
exceeded its walltime, `pending ≤ f ≤ 0` and the job does not end before now. -/
theorem round_conserves (r : Round) (p : Proc) (hok : RoundOk r p) :
    ∃ f, (processOne r p).walltime = p.walltime + f ∧ (processOne r p).row.pending = p.row.pending - f ∧
      (processOne r p).row.granted = p.row.granted + f ∧ (processOne r p).start = p.start ∧ (processOne r p).rids = p.rids ∧
      (f ≠ 0 → 0 < p.row.pending → 0 < f ∧ f ≤ p.row.pending ∧
        (∀ e, r.containerEnd = some e → (processOne r p).end_ r ≤ e) ∧
        ∀ q ∈ r.gantt, q.matters p.rids p.row.delay → p.end_ r < q.start → (processOne r p).end_ r + r.sec ≤ q.start) ∧
      (p.row.pending < 0 → r.now ≤ p.end_ r → p.row.pending ≤ f ∧ f ≤ 0 ∧ r.now ≤ (processOne r p).end_ r) ∧
      (p.row.pending = 0 → processOne r p = p) := by
  unfold processOne
  dsimp only
  by_cases h0 : p.row.pending = 0
  · rw [if_pos h0]
    exact ⟨0, by omega, by omega, by omega, rfl, rfl, by simp, fun h => by omega, fun _ => rfl⟩
  · rw [if_neg h0]
    by_cases h1 : p.row.pending > 0
    · rw [if_pos h1]
      cases hf : fitUp r p with
      | none => exact ⟨0, by simp, by simp, by simp, rfl, rfl, by simp, fun h => by omega, fun h => by omega⟩
      | some f =>
        obtain ⟨g1, g2, g3, g4⟩ := fitUp_spec hok h1 hf
        refine ⟨f, rfl, rfl, rfl, rfl, rfl, fun _ _ => ⟨g1, g2, ?_, ?_⟩, fun h => by omega, fun h => by omega⟩
        · intro e he
          have := g3 e he
          unfold Proc.end_ at this ⊢
          dsimp only
          omega
        · intro q hq hm hlt
          have := g4 q hq hm hlt
          unfold Proc.end_ at this ⊢
          dsimp only
          omega
    · rw [if_neg h1]
      refine ⟨fitDown r p, rfl, rfl, rfl, rfl, rfl, fun _ h => by omega, fun h hn => ?_, fun h => by omega⟩
      unfold Proc.end_ at *
      unfold fitDown
      dsimp only
      split <;> omega

/-- Any sequence of processing rounds. -/
def processAll (p : Proc) (rs : List Round) : Proc := rs.foldl (fun p r => processOne r p) p

/-- Every round of the sequence is well formed for the job as it is at this time. -/
def RoundsOk : Proc → List Round → Prop
  | _, [] => True
  | p, r :: rs => RoundOk r p ∧ RoundsOk (processOne r p) rs

/-- **C22 (all rounds).** For every sequence of processing rounds, the walltime minus the granted time and the pending plus
the granted time are invariant. For an increase what has been granted stays between zero and what was asked (and the walltime
never decreases). -/
theorem rounds_conserve : ∀ (rs : List Round) (p : Proc), RoundsOk p rs →
    (processAll p rs).walltime - (processAll p rs).row.granted = p.walltime - p.row.granted ∧
    (processAll p rs).row.pending + (processAll p rs).row.granted = p.row.pending + p.row.granted ∧
    (0 ≤ p.row.pending → 0 ≤ (processAll p rs).row.pending ∧ (processAll p rs).row.pending ≤ p.row.pending ∧
      p.walltime ≤ (processAll p rs).walltime)
  | [], p, _ => by simp [processAll]
  | r :: rs, p, h => by
    obtain ⟨f, h1, h2, h3, h4, h5, h6, h7, h8⟩ := round_conserves r p h.1
    obtain ⟨i1, i2, i3⟩ := rounds_conserve rs (processOne r p) h.2
    have e : processAll p (r :: rs) = processAll (processOne r p) rs := rfl
    rw [e]
    refine ⟨by omega, by omega, fun hp => ?_⟩
    have hf : 0 ≤ f ∧ f ≤ p.row.pending := by
      by_cases hf0 : f = 0
      · omega
      · by_cases hp0 : p.row.pending = 0
        · have := h8 hp0; rw [this] at h1; omega
        · have := h6 hf0 (by omega); omega
    have := i3 (by omega)
    omega

/-- **C21 (histories), partial.** After one accepted request on a job without any previous request, and any number of
processing rounds, the walltime has increased by at most the configured maximum (no limit and administrators put aside).
Missing: histories with several requests, for which it is false (`max_increase_violated`). -/
theorem increase_bounded_partial (conf : Conf) (job : WJob) (user : String) (a : Asked) (force delay : Bool) (now : Int)
    (rids : Finset Nat) (r : Wtc) (hu : ¬ Admin user) (hmax : conf.maxIncrease job.walltime ≠ -1)
    (h : request conf (some job) user (some a) force delay now none = (.accepted, some r)) (hp : 0 ≤ r.pending)
    (rs : List Round) (hrs : RoundsOk ⟨job.start, job.walltime, rids, r⟩ rs) :
    (processAll ⟨job.start, job.walltime, rids, r⟩ rs).walltime ≤ job.walltime + conf.maxIncrease job.walltime := by
  obtain ⟨r', e, _, _, _, _, hb⟩ := request_bounded conf job user a force delay now none (by rw [h])
  rw [h] at e
  simp only [Option.some.injEq] at e
  subst e
  obtain ⟨i1, i2, i3⟩ := rounds_conserve rs _ hrs
  have i4 := i3 hp
  dsimp only at i1 i2 i4
  have hb' : r.pending ≤ conf.maxIncrease job.walltime := by
    rcases hb with hb | hb | hb
    · exact absurd hb hu
    · exact absurd hb hmax
    · simpa using hb
  omega

/-- **C21, violated.** With a maximal increase of 100 s: a request of 100 s is granted; then a null request resets the
record of what was granted; then 100 s more are asked and granted: the walltime has increased by 200 s. -/
theorem max_increase_violated :
    let r1 := (request conf0 (some job0) "john" (some ⟨1, 100⟩) false false 2000 none)
    let p1 := r1.2.map (fun r => processOne round0 ⟨1000, 3600, {1}, r⟩)
    let r2 := request conf0 (some { job0 with walltime := 3700 }) "john" (some ⟨1, 0⟩) false false 2100 (p1.map Proc.row)
    let r3 := request conf0 (some { job0 with walltime := 3700 }) "john" (some ⟨1, 100⟩) false false 2200 r2.2
    let p3 := r3.2.map (fun r => processOne round0 ⟨1000, 3700, {1}, r⟩)
    r1.1 = .accepted ∧ p1.map Proc.walltime = some 3700 ∧ r2.1 = .accepted ∧ r3.1 = .accepted ∧
      p3.map Proc.walltime = some 3800 := by decide

/-- **C22, the excluded case.** A reduction is asked for a job that has exceeded its walltime (it is still running, 5 s
after its end): instead of a reduction, 5 s are granted, and the pending reduction grows. -/
theorem late_reduction_violated :
    (processOne { round0 with now := 4605 } ⟨1000, 3600, {1}, ⟨-10, false, false, 0, 0, 0⟩⟩).walltime = 3605 ∧
    (processOne { round0 with now := 4605 } ⟨1000, 3600, {1}, ⟨-10, false, false, 0, 0, 0⟩⟩).row.pending = -15 := by decide

/-- The requests are accepted when the option is `YES`, and processed by the metascheduler when it is `yes`: no value of the
option allows both, so that no accepted request is ever processed. -/
theorem accepted_never_processed_violated (conf : Conf) (job : Option WJob) (user : String) (asked : Option Asked)
    (force delay : Bool) (now : Int) (row : Option Wtc)
    (h : (request conf job user asked force delay now row).1 = .accepted) :
    processingEnabled conf = false ∧ ∀ c : Conf, c.enabled = some "yes" → processingEnabled c = true := by
  have := ((request_authorised conf job user asked force delay now row).2 h).1
  unfold processingEnabled
  rw [this]
  refine ⟨by decide, ?_⟩
  intro c hc
  rw [hc]; decide

-- the hypotheses: a request of 300 s limited by a job predicted at 4800 on the same resource (security time 60 s)
example : RoundOk { round0 with gantt := [⟨4800, {1}, false, false⟩] } ⟨1000, 3600, {1}, ⟨300, false, false, 0, 0, 0⟩⟩ := by
  refine ⟨by decide, by decide, by simp [round0]⟩
example : (processOne { round0 with gantt := [⟨4800, {1}, false, false⟩] } ⟨1000, 3600, {1}, ⟨300, false, false, 0, 0, 0⟩⟩).row =
    ⟨161, false, false, 139, 0, 0⟩ := by decide
example : RoundsOk ⟨1000, 3600, {1}, ⟨100, false, false, 0, 0, 0⟩⟩ [round0, round0] := by
  refine ⟨⟨by decide, by decide, by simp [round0]⟩, ⟨by decide, by decide, by simp [round0]⟩, trivial⟩

end Oar.Walltime
