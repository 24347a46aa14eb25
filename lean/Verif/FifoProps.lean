import Verif.Fifo
import Verif.HierarchyProps

/-!
# C74: the FIFO scheduler
-/

namespace Oar.Fifo

open Oar.Hierarchy

/-! ## Specification -/

/-- The first alternative of a job asks for `n` resources among `cts` (first level of its first group). -/
def Wants (j : WJob) (mid : Nat) (cts : ProcSet) (n : Int) : Prop :=
  ∃ w g gs l ls alts, j.rqts = (mid, w, g :: gs) :: alts ∧ g.constraints = cts ∧ g.levels = (l, n) :: ls

/-- The resources taken by the jobs of a list of decisions. -/
def taken (l : List (Nat × Nat × ProcSet)) : ProcSet := bigUnion (l.map (fun d => d.2.2))

/-! ## The choice -/

theorem slice_sublist {α : Type} (l : List α) (n : Int) : (slice l n).Sublist l := by
  unfold slice
  split <;> exact List.take_sublist _ _

theorem mem_listOf (s : ProcSet) (x : Nat) : x ∈ listOf s ↔ x ∈ s := by
  unfold listOf
  rw [List.mem_filter, List.mem_range, decide_eq_true_eq]
  exact ⟨fun h => h.2, fun h => ⟨Nat.lt_succ_of_le (Finset.le_sup (f := id) h), h⟩⟩

theorem nodup_listOf (s : ProcSet) : (listOf s).Nodup := List.Nodup.filter _ List.nodup_range

theorem sorted_listOf (s : ProcSet) : (listOf s).Pairwise (· ≤ ·) :=
  (List.Pairwise.filter _ (List.pairwise_lt_range)).imp (fun h => Nat.le_of_lt h)

theorem length_listOf (s : ProcSet) : (listOf s).length = s.card := by
  rw [← List.toFinset_card_of_nodup (nodup_listOf s)]
  congr 1
  ext x
  rw [List.mem_toFinset, mem_listOf]

theorem pick_spec (free cts : ProcSet) (n : Int) (h : 0 < n) :
    pick free cts n ⊆ cts ∩ free ∧ ((pick free cts n).card : Int) = (if ((cts ∩ free).card : Int) < n then 0 else n) := by
  unfold pick
  rw [length_listOf]
  by_cases hc : ((cts ∩ free).card : Int) < n
  · rw [if_pos hc, if_pos hc]
    exact ⟨Finset.empty_subset _, rfl⟩
  · rw [if_neg hc, if_neg hc]
    refine ⟨fun x hx => ?_, ?_⟩
    · have := (slice_sublist _ n).subset (List.mem_toFinset.1 hx)
      exact (mem_listOf _ _).1 this
    · rw [List.toFinset_card_of_nodup ((slice_sublist _ n).nodup (nodup_listOf _))]
      unfold slice
      rw [if_neg (by omega), List.length_take, length_listOf]
      omega

theorem pick_subset (free cts : ProcSet) (n : Int) : pick free cts n ⊆ cts ∩ free := by
  unfold pick
  split
  · exact Finset.empty_subset _
  · intro x hx
    have := (slice_sublist _ n).subset (List.mem_toFinset.1 hx)
    exact (mem_listOf _ _).1 this

/-- The resources chosen are the smallest ones. -/
theorem pick_smallest (free cts : ProcSet) (n : Int) (x y : Nat) (hx : x ∈ pick free cts n) (hy : y ∈ cts ∩ free) (hlt : y < x) : y ∈ pick free cts n := by
  unfold pick at hx ⊢
  split at hx
  · exact absurd hx (Finset.notMem_empty _)
  · rename_i hc
    rw [if_neg hc]
    rw [List.mem_toFinset] at hx ⊢
    have hp : (slice (listOf (cts ∩ free)) n) <+: (listOf (cts ∩ free)) := by
      unfold slice
      split <;> exact List.take_prefix _ _
    obtain ⟨t, ht⟩ := hp
    have hy' : y ∈ listOf (cts ∩ free) := (mem_listOf _ _).2 hy
    rw [← ht] at hy'
    rcases List.mem_append.1 hy' with h | h
    · exact h
    · have hs : (listOf (cts ∩ free)).Pairwise (· ≤ ·) := sorted_listOf _
      rw [← ht, List.pairwise_append] at hs
      have := hs.2.2 x hx y h
      omega

theorem choose_flat {hy : Hy} {free : ProcSet} {j : WJob} {mid : Nat} {r : ProcSet} (h : choose false hy free j = some (mid, r)) :
    ∃ cts n, Wants j mid cts n ∧ r = pick free cts n := by
  unfold choose at h
  split at h
  · exact absurd h (by simp)
  · rename_i m w groups alts hr
    rw [if_neg (by simp)] at h
    split at h
    · exact absurd h (by simp)
    · rename_i g gs
      split at h
      · exact absurd h (by simp)
      · rename_i l n ls hl
        have := Option.some.inj h
        obtain ⟨e1, e2⟩ := Prod.mk.inj this
        refine ⟨g.constraints, n, ⟨w, g, gs, l, ls, alts, by rw [hr, e1], rfl, hl⟩, e2.symm⟩

theorem choose_subset {b : Bool} {hy : Hy} {free : ProcSet} {j : WJob} {mid : Nat} {r : ProcSet} (h : choose b hy free j = some (mid, r)) : r ⊆ free := by
  cases b with
  | false =>
    obtain ⟨cts, n, _, rfl⟩ := choose_flat h
    exact (pick_subset free cts n).trans Finset.inter_subset_right
  | true =>
    unfold choose at h
    split at h
    · exact absurd h (by simp)
    · rename_i m w groups alts hr
      rw [if_pos rfl] at h
      obtain ⟨x, hx, e⟩ := Option.map_eq_some_iff.1 h
      obtain ⟨_, rfl⟩ := Prod.mk.inj e
      have : ∀ (gs : List Group) (x : ProcSet), findJobBasic free hy gs = some x → x ⊆ free := by
        intro gs
        induction gs with
        | nil => intro x hx; rw [← Option.some.inj hx]; exact Finset.empty_subset _
        | cons g gs ih =>
          intro x hx
          rw [findJobBasic] at hx
          cases hg : findGroup free hy g with
          | none => rw [hg] at hx; exact absurd hx (by simp)
          | some r =>
            cases hb : findJobBasic free hy gs with
            | none => rw [hg, hb] at hx; exact absurd hx (by simp)
            | some rs =>
              rw [hg, hb] at hx
              rw [← Option.some.inj hx]
              exact Finset.union_subset ((findGroup_subset _ _ _ _ hg).trans Finset.inter_subset_right) (ih rs hb)
      exact this groups _ hx

/-! ## The loop -/

theorem taken_cons (d : Nat × Nat × ProcSet) (l : List (Nat × Nat × ProcSet)) : taken (d :: l) = d.2.2 ∪ taken l := rfl

theorem loop_spec {b : Bool} {hy : Hy} : ∀ (waiting : List WJob) (free : ProcSet) (ds : List (Nat × Nat × ProcSet)), loop b hy free waiting = some ds →
    (∀ pre d post, ds = pre ++ d :: post → ∃ j, waiting[pre.length]? = some j ∧ d.1 = j.id ∧ choose b hy (free \ taken pre) j = some d.2 ∧ d.2.2 ≠ ∅) ∧
    (∀ j, waiting[ds.length]? = some j → ∃ mid, choose b hy (free \ taken ds) j = some (mid, ∅)) ∧ ds.length ≤ waiting.length
  | [], free, ds, h => by
    rw [← Option.some.inj h]
    exact ⟨fun pre d post e => absurd e (by simp), fun j hj => absurd hj (by simp), by simp⟩
  | j :: js, free, ds, h => by
    rw [loop] at h
    cases hc : choose b hy free j with
    | none => rw [hc] at h; exact absurd h (by simp)
    | some v =>
      obtain ⟨mid, r⟩ := v
      rw [hc] at h
      dsimp only at h
      by_cases hr : r = ∅
      · rw [if_pos hr] at h
        rw [← Option.some.inj h]
        refine ⟨fun pre d post e => absurd e (by simp), fun k hk => ?_, by simp⟩
        rw [← Option.some.inj hk]
        refine ⟨mid, ?_⟩
        rw [show free \ taken [] = free by simp [taken, bigUnion], hc, hr]
      · rw [if_neg hr] at h
        obtain ⟨l, hl, rfl⟩ := Option.map_eq_some_iff.1 h
        obtain ⟨i1, i2, i3⟩ := loop_spec js (free \ r) l hl
        have hfree : ∀ x, free \ taken ((j.id, mid, r) :: x) = (free \ r) \ taken x := by
          intro x
          rw [taken_cons]
          ext y
          simp only [Finset.mem_sdiff, Finset.mem_union, not_or, and_assoc]
        refine ⟨?_, ?_, ?_⟩
        · intro pre d post e
          cases pre with
          | nil =>
            simp only [List.nil_append, List.cons.injEq] at e
            obtain ⟨rfl, _⟩ := e
            refine ⟨j, rfl, rfl, ?_, hr⟩
            rw [show free \ taken [] = free by simp [taken, bigUnion]]
            exact hc
          | cons x pre =>
            simp only [List.cons_append, List.cons.injEq] at e
            obtain ⟨rfl, e⟩ := e
            obtain ⟨k, h1, h2, h3, h4⟩ := i1 pre d post e
            refine ⟨k, h1, h2, ?_, h4⟩
            rw [hfree]
            exact h3
        · intro k hk
          rw [hfree]
          exact i2 k hk
        · simp only [List.length_cons]
          omega

/-- **C74. The FIFO scheduler.** When a round succeeds, without hierarchy: the jobs served are the first ones, in order; each one gets, for the
first level of the first group of its first alternative, the number of resources asked, among those that satisfy its constraints
and that no earlier job took; and the first job not served could not get its number of resources, so that no job overtakes it. -/
theorem fifo_partial (hy : Hy) (resources : ProcSet) (planned : List PJob) (waiting : List WJob) (ds : List (Nat × Nat × ProcSet))
    (h : cycle false hy resources planned waiting = some ds) :
    (∀ pre d post, ds = pre ++ d :: post → ∃ j cts n, waiting[pre.length]? = some j ∧ d.1 = j.id ∧ Wants j d.2.1 cts n ∧ d.2.2 ≠ ∅ ∧
      d.2.2 ⊆ cts ∩ (resources \ taken pre) ∧ (0 < n → (d.2.2.card : Int) = n)) ∧
    (∀ j, waiting[ds.length]? = some j → ∃ mid cts n, Wants j mid cts n ∧ (0 < n → ((cts ∩ (resources \ taken ds)).card : Int) < n)) ∧
    ds.length ≤ waiting.length := by
  unfold cycle at h
  by_cases hw : waiting = []
  · rw [if_pos hw] at h
    rw [← Option.some.inj h, hw]
    exact ⟨fun pre d post e => absurd e (by simp), fun j hj => absurd hj (by simp), by simp⟩
  · rw [if_neg hw] at h
    split at h
    · exact absurd h (by simp)
    · obtain ⟨h1, h2, h3⟩ := loop_spec waiting resources ds h
      refine ⟨?_, ?_, h3⟩
      · intro pre d post e
        obtain ⟨j, a, b, c, ne⟩ := h1 pre d post e
        obtain ⟨cts, n, hwn, hp⟩ := choose_flat (show choose false hy (resources \ taken pre) j = some (d.2.1, d.2.2) from c)
        refine ⟨j, cts, n, a, b, hwn, ne, ?_, fun hn => ?_⟩
        · rw [hp]; exact pick_subset _ _ _
        · have := (pick_spec (resources \ taken pre) cts n hn).2
          rw [← hp] at this
          split at this
          · exact absurd (Finset.card_eq_zero.1 (by omega)) ne
          · exact this
      · intro j hj
        obtain ⟨mid, hc⟩ := h2 j hj
        obtain ⟨cts, n, hwn, hp⟩ := choose_flat hc
        refine ⟨mid, cts, n, hwn, fun hn => ?_⟩
        have := (pick_spec (resources \ taken ds) cts n hn).2
        rw [← hp] at this
        split at this
        · assumption
        · rw [Finset.card_empty] at this
          exact absurd this (by omega)

/-- C74. In both modes, no resource is given to two jobs, and only existing resources are given. -/
theorem fifo_disjoint (b : Bool) (hy : Hy) (resources : ProcSet) (planned : List PJob) (waiting : List WJob) (ds : List (Nat × Nat × ProcSet))
    (h : cycle b hy resources planned waiting = some ds) :
    ds.Pairwise (fun d e => Disjoint d.2.2 e.2.2) ∧ ∀ d ∈ ds, d.2.2 ⊆ resources := by
  unfold cycle at h
  split at h
  · rw [← Option.some.inj h]; exact ⟨List.Pairwise.nil, by simp⟩
  · split at h
    · exact absurd h (by simp)
    · have key : ∀ (waiting : List WJob) (free : ProcSet) (ds : List (Nat × Nat × ProcSet)), loop b hy free waiting = some ds →
          ds.Pairwise (fun d e => Disjoint d.2.2 e.2.2) ∧ ∀ d ∈ ds, d.2.2 ⊆ free := by
        intro waiting
        induction waiting with
        | nil => intro free ds h; rw [← Option.some.inj h]; exact ⟨List.Pairwise.nil, by simp⟩
        | cons j js ih =>
          intro free ds h
          rw [loop] at h
          cases hc : choose b hy free j with
          | none => rw [hc] at h; exact absurd h (by simp)
          | some v =>
            obtain ⟨mid, r⟩ := v
            rw [hc] at h
            dsimp only at h
            split at h
            · rw [← Option.some.inj h]; exact ⟨List.Pairwise.nil, by simp⟩
            · obtain ⟨l, hl, rfl⟩ := Option.map_eq_some_iff.1 h
              obtain ⟨i1, i2⟩ := ih _ _ hl
              refine ⟨List.Pairwise.cons ?_ i1, ?_⟩
              · intro e he
                exact Finset.disjoint_sdiff.mono_right (i2 e he)
              · intro d hd
                rcases List.mem_cons.1 hd with rfl | hd
                · exact choose_subset hc
                · exact (i2 d hd).trans Finset.sdiff_subset
      exact key waiting resources ds h

/-- C74. With the hierarchy, for jobs of one group: each job served gets an allocation of the shape asked (see C10), the first job
not served has none in the resources left. -/
theorem fifo_hierarchy_partial (hy : Hy) (resources : ProcSet) (planned : List PJob) (waiting : List WJob) (ds : List (Nat × Nat × ProcSet))
    (hone : ∀ j ∈ waiting, ∃ mid w g alts, j.rqts = (mid, w, [g]) :: alts ∧ GroupOk hy g)
    (h : cycle true hy resources planned waiting = some ds) :
    (∀ pre d post, ds = pre ++ d :: post → ∃ j w g alts, waiting[pre.length]? = some j ∧ d.1 = j.id ∧ j.rqts = (d.2.1, w, [g]) :: alts ∧ d.2.2 ≠ ∅ ∧
      findGroup (resources \ taken pre) hy g = some d.2.2) ∧
    (∀ j, waiting[ds.length]? = some j → ∃ mid w g alts, j.rqts = (mid, w, [g]) :: alts ∧ ¬ SatGroup hy (resources \ taken ds) g) := by
  have hch : ∀ j ∈ waiting, ∀ free mid r, choose true hy free j = some (mid, r) → ∃ w g alts, j.rqts = (mid, w, [g]) :: alts ∧ GroupOk hy g ∧ findGroup free hy g = some r := by
    intro j hj free mid r hc
    obtain ⟨m, w, g, alts, e, ok⟩ := hone j hj
    unfold choose at hc
    rw [e] at hc
    dsimp only at hc
    rw [if_pos rfl] at hc
    obtain ⟨x, hx, e2⟩ := Option.map_eq_some_iff.1 hc
    obtain ⟨rfl, rfl⟩ := Prod.mk.inj e2
    refine ⟨w, g, alts, e, ok, ?_⟩
    rw [findJobBasic] at hx
    cases hg : findGroup free hy g with
    | none => rw [hg] at hx; exact absurd hx (by simp)
    | some r =>
      rw [hg] at hx
      have := Option.some.inj hx
      rw [← this, Finset.union_empty]
  unfold cycle at h
  by_cases hw : waiting = []
  · rw [if_pos hw] at h
    rw [← Option.some.inj h, hw]
    exact ⟨fun pre d post e => absurd e (by simp), fun j hj => absurd hj (by simp)⟩
  · rw [if_neg hw] at h
    split at h
    · exact absurd h (by simp)
    · obtain ⟨h1, h2, h3⟩ := loop_spec waiting resources ds h
      refine ⟨?_, ?_⟩
      · intro pre d post e
        obtain ⟨j, a, b, c, ne⟩ := h1 pre d post e
        obtain ⟨w, g, alts, e2, _, hg⟩ := hch j (List.mem_of_getElem? a) _ _ _ c
        exact ⟨j, w, g, alts, a, b, e2, ne, hg⟩
      · intro j hj
        obtain ⟨mid, hc⟩ := h2 j hj
        obtain ⟨w, g, alts, e2, ok, hg⟩ := hch j (List.mem_of_getElem? hj) _ _ _ hc
        refine ⟨mid, w, g, alts, e2, ?_⟩
        rw [← findGroup_sat _ _ _ ok]
        rintro ⟨r, hr, hne⟩
        rw [hg] at hr
        exact hne (Option.some.inj hr).symm

/-! ## Concrete cases, disagreements -/

/-- A job that asks for `n` resources. -/
def exJob (i : Nat) (n : Int) (cts : ProcSet) : WJob := ⟨i, [(10 + i, 3600, [⟨[("resource_id", n)], cts⟩])]⟩

/-- Two jobs are served, the third one cannot be and the fourth one waits behind it. -/
example : cycle false [] {1, 2, 3, 4, 5} [⟨"toLaunch", {5}⟩] [exJob 1 2 {1, 2, 3, 4, 5}, exJob 2 1 {1, 2, 3}, exJob 3 3 {4, 5}, exJob 4 1 {4}] =
    some [(1, 11, {1, 2}), (2, 12, {3})] := by decide +kernel

example : cycle true [("resource_id", [{1}, {2}, {3}])] {1, 2, 3} [] [exJob 1 2 {1, 2, 3}, exJob 2 2 {1, 2, 3}] = some [(1, 11, {1, 2})] := by decide +kernel

/-- C74 (violated). One would expect jobs to be served next to running jobs: as soon as a job is running, a round with waiting jobs raises an
exception, whatever the resources. -/
theorem fifo_running_violated (b : Bool) (hy : Hy) (resources : ProcSet) (planned : List PJob) (waiting : List WJob) (hw : waiting ≠ [])
    (hr : ∃ j ∈ planned, j.state = "Running") : cycle b hy resources planned waiting = none := by
  obtain ⟨j, hj, e⟩ := hr
  unfold cycle
  rw [if_neg hw, if_pos]
  rw [List.any_eq_true]
  exact ⟨j, hj, by simp [e]⟩

/-- C74 (violated). One would expect the resources of the jobs being launched to be kept: they are given again. -/
theorem fifo_planned_violated : ∃ resources planned waiting ds, cycle false [] resources planned waiting = some ds ∧
    ∃ j ∈ planned, j.state = "Launching" ∧ ∃ d ∈ ds, ¬ Disjoint j.res d.2.2 :=
  ⟨{1, 2}, [⟨"Launching", {1}⟩], [exJob 1 1 {1, 2}], [(1, 11, {1})], by decide +kernel, ⟨"Launching", {1}⟩, by simp, rfl, (1, 11, {1}), by simp, by decide⟩

/-- C74 (violated). One would expect a job that asks for all the resources (ALL is stored as -1) to get them all, and BEST (-2) to get
those available: the slice drops the last ones. -/
theorem fifo_all_violated : cycle false [] {1, 2, 3} [] [exJob 1 (-1) {1, 2, 3}] = some [(1, 11, {1, 2})] ∧
    cycle false [] {1, 2, 3} [] [exJob 1 (-2) {1, 2, 3}] = some [(1, 11, {1})] := by decide +kernel

/-- C74 (violated). One would expect a job to get all its groups or nothing: with the hierarchy, a job of two groups is served with the
resources of the first one only. -/
theorem fifo_groups_violated : cycle true [("resource_id", [{1}, {2}])] {1, 2} [] [⟨1, [(11, 3600, [⟨[("resource_id", 1)], {1, 2}⟩, ⟨[("resource_id", 2)], {2}⟩])]⟩] =
    some [(1, 11, {1})] := by decide +kernel

/-- C74 (violated). One would expect a job served to get its whole request: without the hierarchy, the other groups and levels are
ignored. -/
theorem fifo_other_groups_violated : cycle false [] {1, 2} [] [⟨1, [(11, 3600, [⟨[("resource_id", 1)], {1, 2}⟩, ⟨[("resource_id", 2)], {2}⟩])]⟩] =
    some [(1, 11, {1})] := by decide +kernel

end Oar.Fifo
