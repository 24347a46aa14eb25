import Verif.AcctReportGroups

/-!
# C112 : the consumption shown by `oarstat --accounting` is the consumption of the period
-/

namespace Oar.Report

open Oar.Accounting

/-- The rows selected by the two queries for the period and the user (or for everybody), without the option `--sql`. -/
def rowsOf (t : Table) (d1 d2 : Int) (user : Option String) : List ARow := t.filter (selects d1 d2 user fun _ => true)

theorem figure_used {size : Int} (hs : 0 < size) {t : Table} {jobs log : List AJob} (h : History size t jobs log)
    {d1 d2 : Int} {user : Option String} {u : String} (hu : user = none ∨ user = some u) :
    secondsOf (rowsOf t d1 d2 user) (u, "USED") = usedBetween (ofUser u log) (alignDown size (d1 + 1)) (alignUp size d2) := by
  unfold rowsOf
  rw [secondsOf_tot t d1 d2 user u "USED" hu, tot_history hs _ h, part_used]

theorem figure_asked {size : Int} (hs : 0 < size) {t : Table} {jobs log : List AJob} (h : History size t jobs log)
    {d1 d2 : Int} {user : Option String} {u : String} (hu : user = none ∨ user = some u) :
    secondsOf (rowsOf t d1 d2 user) (u, "ASKED") = askedBetween (ofUser u log) (alignDown size (d1 + 1)) (alignUp size d2) := by
  unfold rowsOf
  rw [secondsOf_tot t d1 d2 user u "ASKED" hu, tot_history hs _ h, part_asked]

/-! ### The types of the rows -/

theorem addRow_types (k : AKey) (c : Int) (P : AKey → Prop) (hk : P k) : ∀ t : Table, (∀ r ∈ t, P r.1) → ∀ r ∈ addRow k c t, P r.1
  | [], _ => by simpa [addRow] using hk
  | (k', c') :: t, h => by
    unfold addRow
    by_cases he : k' = k
    · rw [if_pos he]
      intro r hr
      rcases List.mem_cons.1 hr with rfl | hr
      · exact h (k', c') (by simp)
      · exact h r (by simp [hr])
    · rw [if_neg he]
      intro r hr
      rcases List.mem_cons.1 hr with rfl | hr
      · exact h (k', c') (by simp)
      · exact addRow_types k c P hk t (fun r hr => h r (by simp [hr])) r hr

theorem foldl_types (P : AKey → Prop) (f : (Int × Int × Int) → AKey) : ∀ (l : List (Int × Int × Int)) (t : Table), (∀ e, P (f e)) →
    (∀ r ∈ t, P r.1) → ∀ r ∈ l.foldl (fun t e => addRow (f e) e.2.2 t) t, P r.1
  | [], _, _, h => h
  | e :: l, t, hf, h => by
    rw [List.foldl_cons]
    exact foldl_types P f l _ hf (addRow_types _ _ P (hf e) t h)

theorem history_types {size : Int} {t : Table} {jobs log : List AJob} (h : History size t jobs log) :
    ∀ r ∈ t, r.1.ctype = "USED" ∨ r.1.ctype = "ASKED" := by
  induction h with
  | start jobs h => simp
  | evolve jobs' hist h hkeep ih => exact ih
  | @pass t jobs log hist ih =>
    have gen : ∀ (l : List AJob) (t : Table), (∀ r ∈ t, r.1.ctype = "USED" ∨ r.1.ctype = "ASKED") →
        ∀ r ∈ l.foldl (accountJob size) t, r.1.ctype = "USED" ∨ r.1.ctype = "ASKED" := by
      intro l
      induction l with
      | nil => intro t h; exact h
      | cons j l ihl =>
        intro t h
        rw [List.foldl_cons]
        refine ihl _ ?_
        refine foldl_types (fun k => k.ctype = "USED" ∨ k.ctype = "ASKED") _ _ _ (fun e => Or.inr rfl) ?_
        exact foldl_types (fun k => k.ctype = "USED" ∨ k.ctype = "ASKED") _ _ _ (fun e => Or.inl rfl) h
    exact gen _ _ ih

theorem no_rows_iff {size : Int} (hs : 0 < size) {t : Table} {jobs log : List AJob} (h : History size t jobs log)
    {d1 d2 : Int} {user : Option String} {u : String} (hu : user = none ∨ user = some u) :
    (∀ r ∈ rowsOf t d1 d2 user, r.1.user ≠ u) ↔
      usedBetween (ofUser u log) (alignDown size (d1 + 1)) (alignUp size d2) = 0 ∧
      askedBetween (ofUser u log) (alignDown size (d1 + 1)) (alignUp size d2) = 0 := by
  rw [← figure_used hs h hu, ← figure_asked hs h hu]
  constructor
  · intro hn
    exact ⟨secondsOf_none (fun ⟨r, hr, e⟩ => hn r hr (Prod.mk.inj e).1), secondsOf_none (fun ⟨r, hr, e⟩ => hn r hr (Prod.mk.inj e).1)⟩
  · rintro ⟨h1, h2⟩ r hr e
    have hrt := (List.mem_filter.1 hr).1
    have pos : ∀ c, r.1.ctype = c → 0 < secondsOf (rowsOf t d1 d2 user) (u, c) := by
      intro c hc
      refine sum_pos_of_mem _ (fun x hx => ?_) ?_
      · exact history_pos hs h x (List.mem_filter.1 (List.mem_filter.1 hx).1).1
      · refine List.ne_nil_of_mem (a := r) (List.mem_filter.2 ⟨hr, ?_⟩)
        simp [e, hc]
    rcases history_types h r hrt with hc | hc
    · have := pos _ hc; omega
    · have := pos _ hc; omega

/-- **C112.** In every history of the accounting, what `oarstat -u USER --accounting "FROM, TO"` shows: USER is said not to be in
the accounting table exactly when the jobs of USER accounted neither used nor asked anything in the period; otherwise the figures
are the resource-seconds used and asked in the period by the jobs of USER accounted, those of each project are the ones of the jobs
of USER in this project, each project is shown once, and the figures of the projects add up to those of the user. The period is made
of whole windows: from the multiple of the size of the windows not after FROM + 1 s to the one not before TO. -/
theorem user_report (size : Int) (hs : 0 < size) (t : Table) (jobs log : List AJob) (h : History size t jobs log)
    (d1 d2 : Int) (u : String) (l : List Group) (hl : Answer (rowsOf t d1 d2 (some u)) l)
    (p : List PGroup) (hp : PAnswer (rowsOf t d1 d2 (some u)) p) :
    let a := alignDown size (d1 + 1)
    let b := alignUp size d2
    (shownUser u l p = none ↔ usedBetween (ofUser u log) a b = 0 ∧ askedBetween (ofUser u log) a b = 0) ∧
    ∀ s, shownUser u l p = some s →
      s.used = usedBetween (ofUser u log) a b ∧ s.asked = askedBetween (ofUser u log) a b ∧
      (s.projects.map (·.1)).Nodup ∧
      (∀ q ∈ s.projects, q.2.1 = askedBetween (ofProject q.1 (ofUser u log)) a b ∧
        q.2.2 = usedBetween (ofProject q.1 (ofUser u log)) a b) ∧
      (s.projects.map (·.2.1)).sum = s.asked ∧ (s.projects.map (·.2.2)).sum = s.used := by
  dsimp only
  constructor
  · rw [← no_rows_iff hs h (Or.inr rfl), ← summary_none hl]
    unfold shownUser
    rw [Option.map_eq_none_iff]
  · intro s hsome
    unfold shownUser at hsome
    rw [Option.map_eq_some_iff] at hsome
    obtain ⟨e, he, rfl⟩ := hsome
    dsimp only
    have hfu : figure e "USED" = secondsOf (rowsOf t d1 d2 (some u)) (u, "USED") := by
      rw [figure_at2 he, summary_figure hl]
    have hfa : figure e "ASKED" = secondsOf (rowsOf t d1 d2 (some u)) (u, "ASKED") := by
      rw [figure_at2 he, summary_figure hl]
    obtain ⟨k1, k2⟩ := byProject_keys p
    have hpf : ∀ q ∈ summaryByProject p, ∀ c, projectFigure q.2 u c = psecondsOf (rowsOf t d1 d2 (some u)) (u, q.1, c) := by
      intro q hq c
      rw [projectFigure_at3 (lookup_of_mem _ k1 q hq), byProject_figure hp]
    have hcover : ∀ r ∈ rowsOf t d1 d2 (some u), r.1.project ∈ (summaryByProject p).map (·.1) := by
      intro r hr
      obtain ⟨g, hg, hge⟩ := List.mem_map.1 ((pkeys_iff hp (r.1.user, r.1.project, r.1.ctype)).2 ⟨r, hr, rfl⟩)
      exact (k2 _).2 ⟨g, hg, (Prod.mk.inj (Prod.mk.inj hge).2).1⟩
    refine ⟨by rw [hfu, figure_used hs h (Or.inr rfl)], by rw [hfa, figure_asked hs h (Or.inr rfl)], ?_, ?_, ?_, ?_⟩
    · rw [List.map_map]; exact k1
    · intro q hq
      obtain ⟨q', hq', rfl⟩ := List.mem_map.1 hq
      dsimp only
      rw [hpf q' hq', hpf q' hq']
      unfold rowsOf
      rw [psecondsOf_tot, psecondsOf_tot, tot_history hs _ h, tot_history hs _ h, ppart_used, ppart_asked]
      exact ⟨rfl, rfl⟩
    · rw [List.map_map, hfa, ← sum_projects _ k1 u "ASKED" _ hcover, List.map_map]
      exact congrArg List.sum (List.map_congr_left fun q hq => hpf q hq "ASKED")
    · rw [List.map_map, hfu, ← sum_projects _ k1 u "USED" _ hcover, List.map_map]
      exact congrArg List.sum (List.map_congr_left fun q hq => hpf q hq "USED")

/-- When the two dates are multiples of the size of the windows (of more than one second), the period counted is exactly the one
asked for. -/
theorem period_exact (size d1 d2 : Int) (hs : 1 < size) (h1 : size ∣ d1) (h2 : size ∣ d2) :
    alignDown size (d1 + 1) = d1 ∧ alignUp size d2 = d2 := by
  refine ⟨?_, alignUp_of_dvd h2⟩
  have ha : alignDown size (d1 + 1) ≤ d1 := (alignDown_le_iff (by omega) h1).2 (by omega)
  have hb : size ∣ alignDown size (d1 + 1) := alignDown_dvd _ _
  by_contra hne
  have h3 := windows_apart (by omega) hb h1 (by omega)
  have h4 := (alignDown_le_iff (size := size) (x := d1 + 1) (by omega) hb).1 (Int.le_refl _)
  omega

/-- In every case the period counted contains the one asked for, and goes less than one window beyond at each end (the first
second is lost when the windows last one second). -/
theorem period_bounds (size d1 d2 : Int) (hs : 1 < size) :
    alignDown size (d1 + 1) ≤ d1 + 1 ∧ d1 + 1 < alignDown size (d1 + 1) + size ∧ d2 ≤ alignUp size d2 ∧ alignUp size d2 < d2 + size := by
  have h4 := (alignDown_le_iff (size := size) (x := d1 + 1) (by omega) (alignDown_dvd size (d1 + 1))).1 (Int.le_refl _)
  have h5 : alignDown size (d1 + 1) ≤ d1 + 1 := Int.ediv_mul_le _ (by omega)
  have h6 : -d2 / size * size ≤ -d2 := Int.ediv_mul_le _ (by omega)
  have h7 : -d2 < (-d2 / size + 1) * size := Int.lt_ediv_add_one_mul_self _ (by omega)
  rw [Int.add_mul] at h7
  have e : alignUp size d2 = -(-d2 / size * size) := by unfold alignUp; ring
  rw [e]
  omega

/-- **C112.** On the period of dates that are multiples of the size of the windows, the figures are those of the period asked for, and
the figures of two successive periods add up to those of the whole. -/
theorem user_report_aligned (size : Int) (hs : 1 < size) (t : Table) (jobs log : List AJob) (h : History size t jobs log)
    (d1 d2 : Int) (h1 : size ∣ d1) (h2 : size ∣ d2) (u : String) (l : List Group) (hl : Answer (rowsOf t d1 d2 (some u)) l)
    (p : List PGroup) (hp : PAnswer (rowsOf t d1 d2 (some u)) p) (s : Shown) (hsome : shownUser u l p = some s) :
    s.used = usedBetween (ofUser u log) d1 d2 ∧ s.asked = askedBetween (ofUser u log) d1 d2 := by
  have := (user_report size (by omega) t jobs log h d1 d2 u l hl p hp).2 s hsome
  obtain ⟨e1, e2⟩ := period_exact size d1 d2 hs h1 h2
  rw [e1, e2] at this
  exact ⟨this.1, this.2.1⟩

theorem used_additive (js : List AJob) (a b c : Int) (h1 : a ≤ b) (h2 : b ≤ c) :
    usedBetween js a b + usedBetween js b c = usedBetween js a c ∧ askedBetween js a b + askedBetween js b c = askedBetween js a c := by
  have key : ∀ s e : Int, overlap s e a b + overlap s e b c = overlap s e a c := by intro s e; unfold overlap; omega
  unfold usedBetween askedBetween
  induction js with
  | nil => exact ⟨rfl, rfl⟩
  | cons j js ih =>
    simp only [List.map_cons, List.sum_cons]
    have k1 := key j.start j.stop
    have k2 := key j.start (j.start + j.walltime)
    rw [← k1, ← k2, Int.add_mul, Int.add_mul]
    obtain ⟨i1, i2⟩ := ih
    constructor
    · rw [← i1]; ring
    · rw [← i2]; ring

/-- **C112.** The array shown when no user is given: one line for each user who used or asked something in the period, with the
figures of this user. -/
theorem all_users (size : Int) (hs : 0 < size) (t : Table) (jobs log : List AJob) (h : History size t jobs log)
    (d1 d2 : Int) (l : List Group) (hl : Answer (rowsOf t d1 d2 none) l) :
    let a := alignDown size (d1 + 1)
    let b := alignUp size d2
    ((lines l).map (·.1)).Nodup ∧
    (∀ u, u ∈ (lines l).map (·.1) ↔ ¬ (usedBetween (ofUser u log) a b = 0 ∧ askedBetween (ofUser u log) a b = 0)) ∧
    ∀ q ∈ lines l, q.2.2.2.1 = askedBetween (ofUser q.1 log) a b ∧ q.2.2.2.2 = usedBetween (ofUser q.1 log) a b := by
  dsimp only
  obtain ⟨k1, _⟩ := summary_keys l
  have e : (lines l).map (·.1) = (summary l).map (·.1) := by unfold lines; rw [List.map_map]; rfl
  refine ⟨by rw [e]; exact k1, fun u => ?_, fun q hq => ?_⟩
  · rw [e, ← no_rows_iff hs h (Or.inl rfl), ← summary_none hl, lookup_none_iff, not_not]
  · obtain ⟨q', hq', rfl⟩ := List.mem_map.1 hq
    dsimp only
    have he := lookup_of_mem _ k1 q' hq'
    rw [figure_at2 he, figure_at2 he, summary_figure hl, summary_figure hl, figure_used hs h (Or.inl rfl), figure_asked hs h (Or.inl rfl)]
    exact ⟨rfl, rfl⟩

/-- The two dates shown are the start of the first window and the end of the last one **for the type of consumption of the user that has
the most seconds**. -/
theorem shown_windows (t : Table) (d1 d2 : Int) (u : String) (l : List Group) (hl : Answer (rowsOf t d1 d2 (some u)) l)
    (p : List PGroup) (s : Shown) (hsome : shownUser u l p = some s) :
    ∃ c, (∀ r ∈ rowsOf t d1 d2 (some u), secondsOf (rowsOf t d1 d2 (some u)) (u, r.1.ctype) ≤ secondsOf (rowsOf t d1 d2 (some u)) (u, c)) ∧
      (∃ r ∈ rowsOf t d1 d2 (some u), r.1.ctype = c ∧ r.1.wstart = s.begin) ∧
      (∃ r ∈ rowsOf t d1 d2 (some u), r.1.ctype = c ∧ r.1.wstop = s.stop) ∧
      ∀ r ∈ rowsOf t d1 d2 (some u), r.1.ctype = c → s.begin ≤ r.1.wstart ∧ r.1.wstop ≤ s.stop := by
  unfold shownUser at hsome
  rw [Option.map_eq_some_iff] at hsome
  obtain ⟨e, he, rfl⟩ := hsome
  dsimp only
  have huser : ∀ r ∈ rowsOf t d1 d2 (some u), r.1.user = u := by
    intro r hr
    have := (List.mem_filter.1 hr).2
    simp only [selects, Bool.and_eq_true, beq_iff_eq] at this
    exact this.1.2
  rcases summary_last l [] u e he with ⟨a, g, b, h1, h2, h3, h4, h5⟩ | ⟨_, h2⟩
  · have hg : g ∈ l := by rw [h1]; simp
    obtain ⟨g1, g2, g3⟩ := group_of_mem hl hg
    obtain ⟨r0, hr0, hk0⟩ := (keys_iff hl (g.user, g.ctype)).1 (List.mem_map.2 ⟨g, hg, rfl⟩)
    have hmem : ∀ r, r ∈ ofGroup (rowsOf t d1 d2 (some u)) (g.user, g.ctype) ↔ r ∈ rowsOf t d1 d2 (some u) ∧ r.1.ctype = g.ctype := by
      intro r
      unfold ofGroup
      rw [List.mem_filter]
      constructor
      · rintro ⟨x, y⟩
        simp only [beq_iff_eq, Prod.mk.injEq] at y
        exact ⟨x, y.2⟩
      · rintro ⟨x, y⟩
        refine ⟨x, ?_⟩
        simp only [beq_iff_eq, Prod.mk.injEq]
        exact ⟨by rw [huser r x, h2], y⟩
    have hne : ofGroup (rowsOf t d1 d2 (some u)) (g.user, g.ctype) ≠ [] :=
      List.ne_nil_of_mem ((hmem r0).2 ⟨hr0, (Prod.mk.inj hk0).2⟩)
    obtain ⟨m, hm⟩ : ∃ m, ((ofGroup (rowsOf t d1 d2 (some u)) (g.user, g.ctype)).map (·.1.wstart)).min? = some m := by
      cases hc : ((ofGroup (rowsOf t d1 d2 (some u)) (g.user, g.ctype)).map (·.1.wstart)).min? with
      | none => rw [List.min?_eq_none_iff] at hc; simp [hne] at hc
      | some m => exact ⟨m, rfl⟩
    obtain ⟨n, hn⟩ : ∃ m, ((ofGroup (rowsOf t d1 d2 (some u)) (g.user, g.ctype)).map (·.1.wstop)).max? = some m := by
      cases hc : ((ofGroup (rowsOf t d1 d2 (some u)) (g.user, g.ctype)).map (·.1.wstop)).max? with
      | none => rw [List.max?_eq_none_iff] at hc; simp [hne] at hc
      | some m => exact ⟨m, rfl⟩
    have hb : e.begin = m := by rw [h4, g2, hm]; rfl
    have hs : e.stop = n := by rw [h5, g3, hn]; rfl
    rw [List.min?_eq_some_iff] at hm
    rw [List.max?_eq_some_iff] at hn
    refine ⟨g.ctype, ?_, ?_, ?_, ?_⟩
    · intro r hr
      obtain ⟨g', hg', he'⟩ := List.mem_map.1 ((keys_iff hl (r.1.user, r.1.ctype)).2 ⟨r, hr, rfl⟩)
      have e1 := (Prod.mk.inj he').1
      have e2 := (Prod.mk.inj he').2
      rw [huser r hr] at e1
      have s1 : secondsOf (rowsOf t d1 d2 (some u)) (u, r.1.ctype) = g'.seconds := by
        rw [(group_of_mem hl hg').1, e1, e2]
      have s2 : secondsOf (rowsOf t d1 d2 (some u)) (u, g.ctype) = g.seconds := by rw [g1, h2]
      rw [s1, s2]
      have hpw := hl.2
      rw [h1] at hpw hg'
      rcases List.mem_append.1 hg' with hx | hx
      · exact (List.pairwise_append.1 hpw).2.2 g' hx g (by simp)
      · rcases List.mem_cons.1 hx with rfl | hx
        · exact Int.le_refl _
        · exact absurd e1 (h3 g' hx)
    · obtain ⟨r, hr, hre⟩ := List.mem_map.1 hm.1
      exact ⟨r, ((hmem r).1 hr).1, ((hmem r).1 hr).2, by rw [hb]; exact hre⟩
    · obtain ⟨r, hr, hre⟩ := List.mem_map.1 hn.1
      exact ⟨r, ((hmem r).1 hr).1, ((hmem r).1 hr).2, by rw [hs]; exact hre⟩
    · intro r hr hc
      have hm2 := (hmem r).2 ⟨hr, hc⟩
      exact ⟨by rw [hb]; exact hm.2 _ (List.mem_map.2 ⟨r, hm2, rfl⟩), by rw [hs]; exact hn.2 _ (List.mem_map.2 ⟨r, hm2, rfl⟩)⟩
  · simp at h2

end Oar.Report
