import Verif.Visu

/-!
# C120: the plan shown to the users is the one of the last round
-/

namespace Oar.Visu

/-- The round has begun to replace the plan shown. -/
def Run.cleared (r : Run) : Prop := r.plans.length + 1 ≤ r.done

/-- The round has replaced the plan shown. -/
def Run.complete (r : Run) : Prop := r.plans.length + 2 ≤ r.done

instance (r : Run) : Decidable r.cleared := inferInstanceAs (Decidable (_ ≤ _))
instance (r : Run) : Decidable r.complete := inferInstanceAs (Decidable (_ ≤ _))

/-- A description has one date, and a resource is given once to a description. -/
def Distinct (g : Gantt) : Prop := (g.preds.map (·.1)).Nodup ∧ g.res.Nodup

instance (g : Gantt) : Decidable (Distinct g) := inferInstanceAs (Decidable (_ ∧ _))

/-- The keys of the tables of the plan are unique in every committed state, as the database imposes. -/
def Keys (s : St) (rs : List Run) : Prop := Distinct s.gantt ∧ ∀ r ∈ rs, ∀ g ∈ r.plans, Distinct g

theorem unique_iff (g : Gantt) : g.unique = true ↔ Distinct g := by
  unfold Gantt.unique Distinct
  simp

theorem after_nil (s : St) : after s [] = s := rfl

theorem after_append (s : St) (a b : List Run) : after s (a ++ b) = after (after s a) b := by
  unfold after
  rw [List.flatMap_append, List.foldl_append]

/-- Commits of plans. -/
theorem plans_fold (s : St) (gs : List Gantt) : (gs.map Commit.plan).foldl step s = { s with gantt := (gs.getLast?).getD s.gantt } := by
  induction gs generalizing s with
  | nil => rfl
  | cons g l ih =>
    rw [List.map_cons, List.foldl_cons, ih]
    cases l with
    | nil => rfl
    | cons a l => rfl

theorem unique_last {s : St} {gs : List Gantt} (h : Distinct s.gantt) (hg : ∀ g ∈ gs, Distinct g) : Distinct ((gs.getLast?).getD s.gantt) := by
  cases hl : gs.getLast? with
  | none => exact h
  | some g => exact hg g (List.mem_of_getLast? hl)

/-- The state after one round. -/
theorem after_one (s : St) (r : Run) (h : Distinct s.gantt) (hg : ∀ g ∈ r.plans, Distinct g) :
    Distinct (after s [r]).gantt ∧ (¬ r.cleared → (after s [r]).visu = s.visu) ∧ (r.cleared → ¬ r.complete → (after s [r]).visu = ⟨[], []⟩) ∧
    (r.complete → (after s [r]).visu = (after s [r]).gantt) := by
  have e : after s [r] = r.commits.foldl step s := by simp [after]
  rw [e]
  unfold Run.commits
  unfold Run.cleared Run.complete
  by_cases h1 : r.done ≤ r.plans.length
  · have e1 : (r.plans.map Commit.plan ++ [Commit.clear, Commit.fill]).take r.done = (r.plans.take r.done).map Commit.plan := by
      rw [List.take_append_of_le_length (by simpa using h1), List.map_take]
    rw [e1, plans_fold]
    refine ⟨unique_last h (fun g hg' => hg g (List.mem_of_mem_take hg')), fun _ => rfl, ?_, ?_⟩ <;> intros <;> omega
  · by_cases h2 : r.done = r.plans.length + 1
    · have e1 : (r.plans.map Commit.plan ++ [Commit.clear, Commit.fill]).take r.done = r.plans.map Commit.plan ++ [Commit.clear] := by
        rw [List.take_append, h2, List.length_map, Nat.add_sub_cancel_left]
        rw [List.take_of_length_le (by simp)]
        rfl
      rw [e1, List.foldl_append, plans_fold]
      refine ⟨unique_last h hg, ?_, fun _ _ => rfl, ?_⟩ <;> intros <;> omega
    · have e1 : (r.plans.map Commit.plan ++ [Commit.clear, Commit.fill]).take r.done = r.plans.map Commit.plan ++ [Commit.clear, Commit.fill] :=
        List.take_of_length_le (by simp; omega)
      rw [e1, List.foldl_append, plans_fold]
      have hu := unique_last h hg
      generalize (r.plans.getLast?).getD s.gantt = g at hu
      have e2 : List.foldl step { s with gantt := g } [Commit.clear, Commit.fill] = ⟨g, g⟩ := by
        show step ⟨g, ⟨[], []⟩⟩ Commit.fill = _
        unfold step joined
        dsimp only
        rw [List.nil_append, List.nil_append, if_pos ((unique_iff g).2 hu)]
      rw [e2]
      refine ⟨hu, ?_, ?_, fun _ => rfl⟩ <;> intros <;> omega

theorem after_unique (s : St) (rs : List Run) (h : Keys s rs) : Distinct (after s rs).gantt := by
  induction rs generalizing s with
  | nil => exact h.1
  | cons r l ih =>
    rw [show r :: l = [r] ++ l from rfl, after_append]
    exact ih _ ⟨(after_one s r h.1 (h.2 r (by simp))).1, fun q hq => h.2 q (List.mem_cons_of_mem _ hq)⟩

theorem after_kept (s : St) (rs : List Run) (h : Keys s rs) (hc : ∀ r ∈ rs, ¬ r.cleared) : (after s rs).visu = s.visu := by
  induction rs generalizing s with
  | nil => rfl
  | cons r l ih =>
    rw [show r :: l = [r] ++ l from rfl, after_append]
    have h1 := after_one s r h.1 (h.2 r (by simp))
    rw [ih _ ⟨h1.1, fun q hq => h.2 q (List.mem_cons_of_mem _ hq)⟩ (fun q hq => hc q (List.mem_cons_of_mem _ hq))]
    exact h1.2.1 (hc r (by simp))

/-- **C120.** At every moment of every history of rounds, interrupted anywhere: the plan shown is the initial one if no round has begun to replace it; otherwise, when the last round
that did so has finished, it is exactly the plan of this round, and when it has not the plan shown is empty. In particular it is never a mixture of two plans. -/
theorem shown_exact (s : St) (rs : List Run) (h : Keys s rs) :
    ((∀ r ∈ rs, ¬ r.cleared) ∧ (after s rs).visu = s.visu) ∨
    ∃ a r b, rs = a ++ r :: b ∧ r.cleared ∧ (∀ q ∈ b, ¬ q.cleared) ∧ (after s rs).visu = if r.complete then (after s (a ++ [r])).gantt else ⟨[], []⟩ := by
  have key : ∀ l : List Run, (∀ r ∈ l, ¬ r.cleared) ∨ ∃ a r b, l = a ++ r :: b ∧ r.cleared ∧ ∀ q ∈ b, ¬ q.cleared := by
    intro l
    induction l with
    | nil => exact Or.inl (by simp)
    | cons x l ih =>
      rcases ih with ih | ⟨a, r, b, e, h1, h2⟩
      · by_cases hx : x.cleared
        · exact Or.inr ⟨[], x, l, rfl, hx, ih⟩
        · exact Or.inl (by
            intro r hr
            rcases List.mem_cons.1 hr with rfl | hr
            · exact hx
            · exact ih r hr)
      · exact Or.inr ⟨x :: a, r, b, by rw [e]; rfl, h1, h2⟩
  rcases key rs with hk | ⟨a, r, b, e, h1, h2⟩
  · exact Or.inl ⟨hk, after_kept s rs h hk⟩
  · right
    refine ⟨a, r, b, e, h1, h2, ?_⟩
    have ka : Keys s a := ⟨h.1, fun q hq => h.2 q (by rw [e]; exact List.mem_append_left _ hq)⟩
    have ho := after_one (after s a) r (after_unique s a ka) (h.2 r (by rw [e]; simp))
    have e2 : after s rs = after (after s (a ++ [r])) b := by
      rw [← after_append, e]
      simp
    have e3 : after s (a ++ [r]) = after (after s a) [r] := after_append s a [r]
    rw [e2, after_kept _ b ⟨by rw [e3]; exact ho.1, fun q hq => h.2 q (by rw [e]; simp [hq])⟩ h2, e3]
    by_cases hc : r.complete
    · rw [if_pos hc]
      exact ho.2.2.2 hc
    · rw [if_neg hc]
      exact ho.2.2.1 h1 hc

/-- **C120.** After a round that has finished the plan shown is the plan. -/
theorem finished_exact (s : St) (rs : List Run) (r : Run) (h : Keys s (rs ++ [r])) (hr : r.complete) : (after s (rs ++ [r])).visu = (after s (rs ++ [r])).gantt := by
  have ka : Keys s rs := ⟨h.1, fun q hq => h.2 q (List.mem_append_left _ hq)⟩
  rw [after_append]
  exact (after_one (after s rs) r (after_unique s rs ka) (h.2 r (by simp))).2.2.2 hr

/-- **C120.** After a round that has finished, whatever the history, every unfinished job of the plan is in the list of the jobs of an interval that meets the interval planned. -/
theorem listed_partial (db : Api.Db) (s : St) (rs : List Run) (r : Run) (h : Keys s (rs ++ [r])) (hr : r.complete)
    (j : Api.Job) (hj : j ∈ db.jobs) (hs : j.state ∈ Api.liveStates) (m : Api.Mold) (hm : m ∈ db.molds) (hmj : m.job = j.id)
    (t : Int) (hp : (m.id, t) ∈ (after s (rs ++ [r])).gantt.preds) (n : Nat) (hn : (m.id, n) ∈ (after s (rs ++ [r])).gantt.res)
    (a b : Int) (h1 : a ≤ t + m.walltime) (h2 : t < b) : j ∈ Api.jobsForUser (view db (after s (rs ++ [r]))) { fromT := some a, toT := some b } := by
  unfold Api.jobsForUser
  rw [List.mem_filter]
  refine ⟨hj, ?_⟩
  have hv := finished_exact s rs r h hr
  have hq : Api.q2 (view db (after s (rs ++ [r]))) { fromT := some a, toT := some b } j = true := by
    unfold Api.q2 view
    rw [hv]
    rw [List.any_eq_true]
    refine ⟨(m.id, t), hp, ?_⟩
    rw [Bool.and_eq_true]
    refine ⟨List.any_eq_true.2 ⟨(m.id, n), hn, by simp⟩, List.any_eq_true.2 ⟨m, hm, ?_⟩⟩
    have hc : Api.Filter.common { fromT := some a, toT := some b } j = true := by
      unfold Api.Filter.common Api.Filter.kept Api.Filter.plain
      dsimp only
      have h3 : j.state ∈ Api.liveStates ++ ["Terminated", "Error"] := List.mem_append_left _ hs
      have h4 : (Api.liveStates ++ ["Terminated", "Error"]).isEmpty = false := by decide
      have h5 : Api.liveStates.isEmpty = false := by decide
      by_cases ht : (Api.truthy (some a) || Api.truthy (some b)) = true
      · simp [ht, h3]
      · simp [ht, hs]
    rw [hc]
    unfold Api.bound
    simp [hmj, h1, h2]
  rw [hq]
  simp

/-- C120 (violated). For every history and every round which is interrupted between its two commits, or that the users read between them: whatever was planned, no waiting job submitted
before the interval is in the list of an interval, until a later round has finished. -/
theorem hidden_violated (db : Api.Db) (s : St) (rs : List Run) (r : Run) (later : List Run) (h : Keys s (rs ++ r :: later)) (hr : r.done = r.plans.length + 1)
    (hl : ∀ q ∈ later, ¬ q.complete) (j : Api.Job) (hm : ∀ x ∈ db.assigned, x.mold ≠ j.mold) (a b : Int) (hsub : j.submission < a) :
    j ∉ Api.jobsForUser (view db (after s (rs ++ r :: later))) { fromT := some a, toT := some b } := by
  have hv : (after s (rs ++ r :: later)).visu = ⟨[], []⟩ := by
    rcases shown_exact s _ h with ⟨hc, -⟩ | ⟨x, q, y, e, hq, hy, hvis⟩
    · exact absurd (show r.cleared by unfold Run.cleared; omega) (hc r (by simp))
    · have hqn : ¬ q.complete := by
        intro hqc
        have hmem : q ∈ rs ++ r :: later := by rw [e]; simp
        rcases List.append_eq_append_iff.1 e with ⟨a', e1, e2⟩ | ⟨c', e1, e2⟩
        · cases a' with
          | nil =>
            rw [List.nil_append] at e2
            obtain ⟨rfl, -⟩ := List.cons.inj e2
            unfold Run.complete at hqc
            omega
          | cons z a' =>
            rw [List.cons_append] at e2
            obtain ⟨-, e3⟩ := List.cons.inj e2
            exact hl q (by rw [e3]; simp) hqc
        · cases c' with
          | nil =>
            rw [List.nil_append] at e2
            obtain ⟨rfl, -⟩ := List.cons.inj e2
            unfold Run.complete at hqc
            omega
          | cons z c' =>
            rw [List.cons_append] at e2
            obtain ⟨-, e3⟩ := List.cons.inj e2
            exact absurd (show r.cleared by unfold Run.cleared; omega) (hy r (by rw [e3]; simp))
      rw [hvis, if_neg hqn]
  unfold Api.jobsForUser
  rw [List.mem_filter]
  rintro ⟨-, hq⟩
  have h1 : Api.q1 (view db (after s (rs ++ r :: later))) { fromT := some a, toT := some b } j = false := by
    unfold Api.q1 view
    rw [List.any_eq_false]
    intro x hx
    have : (j.mold == x.mold) = false := by
      have := hm x hx
      simp only [beq_eq_false_iff_ne, ne_eq]
      exact fun e => this e.symm
    simp [this]
  have h2 : Api.q2 (view db (after s (rs ++ r :: later))) { fromT := some a, toT := some b } j = false := by
    unfold Api.q2 view
    rw [hv]
    rfl
  have h3 : Api.q3 { fromT := some a, toT := some b } j = false := by
    unfold Api.q3 Api.bound
    have : ¬ (a ≤ j.submission) := by omega
    simp [this]
  rw [h1, h2, h3] at hq
  exact absurd hq (by decide)

/-! ## Examples -/

/-- A waiting job submitted at 10, planned at 1000 for an hour on the resource 3. -/
def db0 : Api.Db := { jobs := [{ id := 5, user := "bob", state := "Waiting", submission := 10 }], molds := [⟨8, 5, 3600⟩], assigned := [], preds := [], visu := [], rids := [3] }

/-- The plan of this job. -/
def plan0 : Gantt := ⟨[(8, 1000)], [(8, 3)]⟩

/-- No plan. -/
def st0 : St := ⟨⟨[], []⟩, ⟨[], []⟩⟩

example : Keys st0 [⟨[plan0], 3⟩, ⟨[⟨[], []⟩, plan0], 3⟩] ∧
    (Api.jobsForUser (view db0 (after st0 [⟨[plan0], 3⟩])) { fromT := some 2000, toT := some 3000 }).map (·.id) = [5] ∧
    (after st0 [⟨[plan0], 3⟩, ⟨[⟨[], []⟩, plan0], 1⟩]).visu = plan0 ∧
    (after st0 [⟨[plan0], 3⟩, ⟨[⟨[], []⟩, plan0], 1⟩]).gantt = ⟨[], []⟩ ∧
    (Api.jobsForUser (view db0 (after st0 [⟨[plan0], 3⟩, ⟨[⟨[], []⟩, plan0], 3⟩])) { fromT := some 2000, toT := some 3000 }).map (·.id) = [] := by
  refine ⟨⟨by decide, by decide⟩, by decide, by decide, by decide, by decide⟩

end Oar.Visu
