import Verif.AcctReportLemmas

/-!
# C112 : what the dictionaries of the report contain
-/

namespace Oar.Report

open Oar.Accounting

/-! ## The first query -/

/-- `results[u][c]`. -/
def at2 (res : List (String × Entry)) (u c : String) : Option Int := (((res.lookup u).map Entry.types).getD []).lookup c

theorem at2_addGroup (res : List (String × Entry)) (g : Group) (u c : String) :
    at2 (addGroup res g) u c = if (u, c) = (g.user, g.ctype) then some g.seconds else at2 res u c := by
  unfold at2 addGroup
  rw [lookup_put]
  by_cases hu : u = g.user
  · subst hu
    rw [if_pos rfl]
    dsimp only [Option.map_some, Option.getD_some]
    rw [lookup_put]
    by_cases hc : c = g.ctype
    · subst hc; simp
    · rw [if_neg hc, if_neg (fun h => hc (Prod.mk.inj h).2)]
  · rw [if_neg hu, if_neg (fun h => hu (Prod.mk.inj h).1)]

theorem at2_foldl (S : String × String → Int) (k : String × String) : ∀ (l : List Group) (acc : List (String × Entry)),
    (∀ g ∈ l, g.seconds = S (g.user, g.ctype)) → at2 (l.foldl addGroup acc) k.1 k.2 =
      if k ∈ l.map (fun g => (g.user, g.ctype)) then some (S k) else at2 acc k.1 k.2
  | [], acc, _ => by simp
  | g :: l, acc, h => by
    rw [List.foldl_cons, at2_foldl S k l _ (fun g hg => h g (by simp [hg])), at2_addGroup]
    have hg := h g (by simp)
    rw [List.map_cons]
    by_cases h1 : k ∈ l.map (fun g => (g.user, g.ctype))
    · rw [if_pos h1, if_pos (List.mem_cons_of_mem _ h1)]
    · rw [if_neg h1]
      by_cases h2 : k = (g.user, g.ctype)
      · rw [if_pos h2, if_pos (by rw [h2]; exact List.mem_cons_self ..), hg, h2]
      · rw [if_neg h2, if_neg]
        intro hm
        rcases List.mem_cons.1 hm with e | e
        · exact h2 e
        · exact h1 e

/-- The seconds of a group. -/
def secondsOf (rows : List ARow) (k : String × String) : Int := ((ofGroup rows k).map (·.2)).sum

theorem group_of_mem {rows : List ARow} {l : List Group} (h : Answer rows l) {g : Group} (hg : g ∈ l) :
    g.seconds = secondsOf rows (g.user, g.ctype) ∧ g.first = ((ofGroup rows (g.user, g.ctype)).map (·.1.wstart)).min?.getD 0 ∧
    g.last = ((ofGroup rows (g.user, g.ctype)).map (·.1.wstop)).max?.getD 0 := by
  have hm := h.1.mem_iff.1 hg
  obtain ⟨k, _, rfl⟩ := List.mem_map.1 hm
  exact ⟨rfl, rfl, rfl⟩

theorem keys_iff {rows : List ARow} {l : List Group} (h : Answer rows l) (k : String × String) :
    k ∈ l.map (fun g => (g.user, g.ctype)) ↔ ∃ r ∈ rows, (r.1.user, r.1.ctype) = k := by
  have h1 : k ∈ l.map (fun g => (g.user, g.ctype)) ↔ k ∈ (groups rows).map (fun g => (g.user, g.ctype)) :=
    (h.1.map _).mem_iff
  rw [h1]
  unfold groups
  rw [List.map_map, List.mem_map]
  constructor
  · rintro ⟨k', hk', rfl⟩
    rw [List.mem_eraseDups] at hk'
    obtain ⟨r, hr, rfl⟩ := List.mem_map.1 hk'
    exact ⟨r, hr, rfl⟩
  · rintro ⟨r, hr, rfl⟩
    exact ⟨_, List.mem_eraseDups.2 (List.mem_map.2 ⟨r, hr, rfl⟩), rfl⟩

theorem secondsOf_none {rows : List ARow} {k : String × String} (h : ¬ ∃ r ∈ rows, (r.1.user, r.1.ctype) = k) :
    secondsOf rows k = 0 := by
  unfold secondsOf ofGroup
  rw [List.filter_eq_nil_iff.2]
  · rfl
  · intro r hr
    simp only [beq_iff_eq]
    exact fun e => h ⟨r, hr, e⟩

theorem summary_figure {rows : List ARow} {l : List Group} (h : Answer rows l) (u c : String) :
    (at2 (summary l) u c).getD 0 = secondsOf rows (u, c) := by
  have := at2_foldl (secondsOf rows) (u, c) l [] (fun g hg => (group_of_mem h hg).1)
  unfold summary
  rw [this]
  by_cases hk : (u, c) ∈ l.map (fun g => (g.user, g.ctype))
  · rw [if_pos hk]; rfl
  · rw [if_neg hk, secondsOf_none (fun he => hk ((keys_iff h _).2 he))]
    rfl

theorem figure_at2 {res : List (String × Entry)} {u : String} {e : Entry} (h : res.lookup u = some e) (c : String) :
    figure e c = (at2 res u c).getD 0 := by
  unfold figure at2
  rw [h]
  rfl

theorem summary_keys (l : List Group) : ((summary l).map (·.1)).Nodup ∧ ∀ u, u ∈ (summary l).map (·.1) ↔ ∃ g ∈ l, g.user = u := by
  have gen : ∀ (l : List Group) (acc : List (String × Entry)), (acc.map (·.1)).Nodup →
      ((l.foldl addGroup acc).map (·.1)).Nodup ∧
        ∀ u, u ∈ (l.foldl addGroup acc).map (·.1) ↔ (∃ g ∈ l, g.user = u) ∨ u ∈ acc.map (·.1) := by
    intro l
    induction l with
    | nil => intro acc h; exact ⟨h, fun u => by simp⟩
    | cons g l ih =>
      intro acc h
      obtain ⟨p1, p2⟩ := put_keys g.user ⟨put g.ctype g.seconds ((acc.lookup g.user).map Entry.types |>.getD []), g.first, g.last⟩ acc h
      obtain ⟨i1, i2⟩ := ih (addGroup acc g) p1
      refine ⟨i1, fun u => ?_⟩
      rw [List.foldl_cons, i2 u]
      have := p2 u
      unfold addGroup
      rw [this]
      constructor
      · rintro (⟨g', hg', rfl⟩ | e | e)
        · exact Or.inl ⟨g', by simp [hg'], rfl⟩
        · exact Or.inl ⟨g, by simp, e.symm⟩
        · exact Or.inr e
      · rintro (⟨g', hg', rfl⟩ | e)
        · rcases List.mem_cons.1 hg' with rfl | hg'
          · exact Or.inr (Or.inl rfl)
          · exact Or.inl ⟨g', hg', rfl⟩
        · exact Or.inr (Or.inr e)
  obtain ⟨g1, g2⟩ := gen l [] (by simp)
  refine ⟨g1, fun u => ?_⟩
  have := g2 u
  unfold summary
  rw [this]
  simp

theorem summary_none {rows : List ARow} {l : List Group} (h : Answer rows l) (u : String) :
    (summary l).lookup u = none ↔ ∀ r ∈ rows, r.1.user ≠ u := by
  rw [lookup_none_iff, (summary_keys l).2 u]
  constructor
  · intro hn r hr e
    obtain ⟨g, hg, he⟩ := List.mem_map.1 ((keys_iff h (r.1.user, r.1.ctype)).2 ⟨r, hr, rfl⟩)
    exact hn ⟨g, hg, by rw [← e]; exact (Prod.mk.inj he).1⟩
  · rintro hn ⟨g, hg, rfl⟩
    obtain ⟨r, hr, he⟩ := (keys_iff h (g.user, g.ctype)).1 (List.mem_map.2 ⟨g, hg, rfl⟩)
    exact hn r hr (Prod.mk.inj he).1

/-- The entry of a user comes from the last of its groups. -/
theorem summary_last : ∀ (l : List Group) (acc : List (String × Entry)) (u : String) (e : Entry),
    (l.foldl addGroup acc).lookup u = some e →
    (∃ a g b, l = a ++ g :: b ∧ g.user = u ∧ (∀ g' ∈ b, g'.user ≠ u) ∧ e.begin = g.first ∧ e.stop = g.last) ∨
    ((∀ g' ∈ l, g'.user ≠ u) ∧ acc.lookup u = some e)
  | [], acc, u, e, h => Or.inr ⟨by simp, h⟩
  | g :: l, acc, u, e, h => by
    rw [List.foldl_cons] at h
    rcases summary_last l _ u e h with ⟨a, g', b, h1, h2⟩ | ⟨h1, h2⟩
    · exact Or.inl ⟨g :: a, g', b, by rw [h1]; rfl, h2⟩
    · unfold addGroup at h2
      rw [lookup_put] at h2
      by_cases hu : u = g.user
      · rw [if_pos hu] at h2
        refine Or.inl ⟨[], g, l, rfl, hu.symm, h1, ?_⟩
        cases h2
        exact ⟨rfl, rfl⟩
      · rw [if_neg hu] at h2
        refine Or.inr ⟨fun g' hg' => ?_, h2⟩
        rcases List.mem_cons.1 hg' with rfl | hg'
        · exact fun e => hu e.symm
        · exact h1 g' hg'

/-! ## The second query -/

/-- `results[p][c][u]`. -/
def at3 (res : List (String × List (String × List (String × Int)))) (p c u : String) : Option Int :=
  ((((res.lookup p).getD []).lookup c).getD []).lookup u

theorem at3_addPGroup (res : List (String × List (String × List (String × Int)))) (g : PGroup) (p c u : String) :
    at3 (addPGroup res g) p c u = if (u, p, c) = (g.user, g.project, g.ctype) then some g.seconds else at3 res p c u := by
  unfold at3 addPGroup
  dsimp only
  rw [lookup_put]
  by_cases hp : p = g.project
  · subst hp
    rw [if_pos rfl, Option.getD_some, lookup_put]
    by_cases hc : c = g.ctype
    · subst hc
      rw [if_pos rfl, Option.getD_some, lookup_put]
      by_cases hu : u = g.user
      · subst hu; simp
      · rw [if_neg hu, if_neg (fun h => hu (Prod.mk.inj h).1)]
    · rw [if_neg hc, if_neg (fun h => hc (Prod.mk.inj (Prod.mk.inj h).2).2)]
  · rw [if_neg hp, if_neg (fun h => hp (Prod.mk.inj (Prod.mk.inj h).2).1)]

theorem at3_foldl (S : String × String × String → Int) (k : String × String × String) :
    ∀ (l : List PGroup) (acc : List (String × List (String × List (String × Int)))),
    (∀ g ∈ l, g.seconds = S (g.user, g.project, g.ctype)) → at3 (l.foldl addPGroup acc) k.2.1 k.2.2 k.1 =
      if k ∈ l.map (fun g => (g.user, g.project, g.ctype)) then some (S k) else at3 acc k.2.1 k.2.2 k.1
  | [], acc, _ => by simp
  | g :: l, acc, h => by
    rw [List.foldl_cons, at3_foldl S k l _ (fun g hg => h g (by simp [hg])), at3_addPGroup]
    have hg := h g (by simp)
    rw [List.map_cons]
    by_cases h1 : k ∈ l.map (fun g => (g.user, g.project, g.ctype))
    · rw [if_pos h1, if_pos (List.mem_cons_of_mem _ h1)]
    · rw [if_neg h1]
      by_cases h2 : k = (g.user, g.project, g.ctype)
      · rw [if_pos h2, if_pos (by rw [h2]; exact List.mem_cons_self ..), hg, h2]
      · rw [if_neg h2, if_neg]
        intro hm
        rcases List.mem_cons.1 hm with e | e
        · exact h2 e
        · exact h1 e

/-- The seconds of a group of the second query. -/
def psecondsOf (rows : List ARow) (k : String × String × String) : Int := ((ofPGroup rows k).map (·.2)).sum

theorem pkeys_iff {rows : List ARow} {l : List PGroup} (h : PAnswer rows l) (k : String × String × String) :
    k ∈ l.map (fun g => (g.user, g.project, g.ctype)) ↔ ∃ r ∈ rows, (r.1.user, r.1.project, r.1.ctype) = k := by
  have h1 : k ∈ l.map (fun g => (g.user, g.project, g.ctype)) ↔ k ∈ (pgroups rows).map (fun g => (g.user, g.project, g.ctype)) :=
    (h.map _).mem_iff
  rw [h1]
  unfold pgroups
  rw [List.map_map, List.mem_map]
  constructor
  · rintro ⟨k', hk', rfl⟩
    rw [List.mem_eraseDups] at hk'
    obtain ⟨r, hr, rfl⟩ := List.mem_map.1 hk'
    exact ⟨r, hr, rfl⟩
  · rintro ⟨r, hr, rfl⟩
    exact ⟨_, List.mem_eraseDups.2 (List.mem_map.2 ⟨r, hr, rfl⟩), rfl⟩

theorem psecondsOf_none {rows : List ARow} {k : String × String × String}
    (h : ¬ ∃ r ∈ rows, (r.1.user, r.1.project, r.1.ctype) = k) : psecondsOf rows k = 0 := by
  unfold psecondsOf ofPGroup
  rw [List.filter_eq_nil_iff.2]
  · rfl
  · intro r hr
    simp only [beq_iff_eq]
    exact fun e => h ⟨r, hr, e⟩

theorem byProject_figure {rows : List ARow} {l : List PGroup} (h : PAnswer rows l) (p c u : String) :
    (at3 (summaryByProject l) p c u).getD 0 = psecondsOf rows (u, p, c) := by
  have := at3_foldl (psecondsOf rows) (u, p, c) l [] (fun g hg => by
    obtain ⟨k, _, rfl⟩ := List.mem_map.1 (h.mem_iff.1 hg)
    rfl)
  unfold summaryByProject
  rw [this]
  by_cases hk : (u, p, c) ∈ l.map (fun g => (g.user, g.project, g.ctype))
  · rw [if_pos hk]; rfl
  · rw [if_neg hk, psecondsOf_none (fun he => hk ((pkeys_iff h _).2 he))]
    rfl

theorem byProject_keys (l : List PGroup) : ((summaryByProject l).map (·.1)).Nodup ∧
    ∀ p, p ∈ (summaryByProject l).map (·.1) ↔ ∃ g ∈ l, g.project = p := by
  have gen : ∀ (l : List PGroup) (acc : List (String × List (String × List (String × Int)))), (acc.map (·.1)).Nodup →
      ((l.foldl addPGroup acc).map (·.1)).Nodup ∧
        ∀ u, u ∈ (l.foldl addPGroup acc).map (·.1) ↔ (∃ g ∈ l, g.project = u) ∨ u ∈ acc.map (·.1) := by
    intro l
    induction l with
    | nil => intro acc h; exact ⟨h, fun u => by simp⟩
    | cons g l ih =>
      intro acc h
      obtain ⟨p1, p2⟩ := put_keys g.project (put g.ctype (put g.user g.seconds
        ((((acc.lookup g.project).getD []).lookup g.ctype).getD [])) ((acc.lookup g.project).getD [])) acc h
      obtain ⟨i1, i2⟩ := ih (addPGroup acc g) p1
      refine ⟨i1, fun u => ?_⟩
      rw [List.foldl_cons, i2 u]
      have := p2 u
      unfold addPGroup
      dsimp only
      rw [this]
      constructor
      · rintro (⟨g', hg', rfl⟩ | e | e)
        · exact Or.inl ⟨g', by simp [hg'], rfl⟩
        · exact Or.inl ⟨g, by simp, e.symm⟩
        · exact Or.inr e
      · rintro (⟨g', hg', rfl⟩ | e)
        · rcases List.mem_cons.1 hg' with rfl | hg'
          · exact Or.inr (Or.inl rfl)
          · exact Or.inl ⟨g', hg', rfl⟩
        · exact Or.inr (Or.inr e)
  obtain ⟨g1, g2⟩ := gen l [] (by simp)
  refine ⟨g1, fun u => ?_⟩
  have := g2 u
  unfold summaryByProject
  rw [this]
  simp

theorem projectFigure_at3 {res : List (String × List (String × List (String × Int)))} {p : String}
    {e : List (String × List (String × Int))} (h : res.lookup p = some e) (c u : String) :
    projectFigure e u c = (at3 res p c u).getD 0 := by
  unfold projectFigure at3
  rw [h]
  rfl

/-! ## The figures and the rows of the table -/

theorem secondsOf_tot (t : Table) (d1 d2 : Int) (user : Option String) (u c : String) (hu : user = none ∨ user = some u) :
    secondsOf (t.filter (selects d1 d2 user fun _ => true)) (u, c) =
      tot (inPeriod d1 d2 fun u' _ c' => u' == u && c' == c) t := by
  unfold secondsOf ofGroup tot
  rw [List.filter_filter]
  congr 2
  refine List.filter_congr fun r _ => ?_
  unfold selects inPeriod
  rcases hu with rfl | rfl <;> simp only [Bool.and_true]
  · rw [Bool.eq_iff_iff]; simp only [Bool.and_eq_true, beq_iff_eq, decide_eq_true_eq, Prod.mk.injEq]; exact ⟨fun h => ⟨h.2, h.1⟩, fun h => ⟨h.2, h.1⟩⟩
  · rw [Bool.eq_iff_iff]; simp only [Bool.and_eq_true, beq_iff_eq, decide_eq_true_eq, Prod.mk.injEq]
    exact ⟨fun h => ⟨h.2.1, h.1⟩, fun h => ⟨h.2, h.1, h.2.1⟩⟩

theorem psecondsOf_tot (t : Table) (d1 d2 : Int) (u p c : String) :
    psecondsOf (t.filter (selects d1 d2 (some u) fun _ => true)) (u, p, c) =
      tot (inPeriod d1 d2 fun u' p' c' => u' == u && p' == p && c' == c) t := by
  unfold psecondsOf ofPGroup tot
  rw [List.filter_filter]
  congr 2
  refine List.filter_congr fun r _ => ?_
  unfold selects inPeriod
  simp only [Bool.and_true]
  rw [Bool.eq_iff_iff]; simp only [Bool.and_eq_true, beq_iff_eq, decide_eq_true_eq, Prod.mk.injEq]
  exact ⟨fun h => ⟨h.2.1, ⟨h.1.1, h.1.2.1⟩, h.1.2.2⟩, fun h => ⟨⟨h.2.1.1, h.2.1.2, h.2.2⟩, h.1, h.2.1.1⟩⟩

theorem sum_filter {α : Type} (p : α → Bool) (f g : α → Int) (h1 : ∀ x, p x = true → f x = g x) (h2 : ∀ x, p x = false → f x = 0) :
    ∀ l : List α, (l.map f).sum = ((l.filter p).map g).sum
  | [] => rfl
  | a :: l => by
    rw [List.map_cons, List.sum_cons, sum_filter p f g h1 h2 l, List.filter_cons]
    by_cases h : p a = true
    · rw [if_pos h, List.map_cons, List.sum_cons, h1 a h]
    · rw [if_neg h, h2 a (by simpa using h), Int.zero_add]

theorem part_used (size d1 d2 : Int) (u : String) (log : List AJob) :
    (log.map (part size d1 d2 fun u' _ c' => u' == u && c' == "USED")).sum =
      usedBetween (ofUser u log) (alignDown size (d1 + 1)) (alignUp size d2) := by
  unfold usedBetween ofUser
  refine sum_filter _ _ _ (fun j h => ?_) (fun j h => ?_) log
  · unfold part; simp [h]
  · unfold part; simp [h]

theorem part_asked (size d1 d2 : Int) (u : String) (log : List AJob) :
    (log.map (part size d1 d2 fun u' _ c' => u' == u && c' == "ASKED")).sum =
      askedBetween (ofUser u log) (alignDown size (d1 + 1)) (alignUp size d2) := by
  unfold askedBetween ofUser
  refine sum_filter _ _ _ (fun j h => ?_) (fun j h => ?_) log
  · unfold part; simp [h]
  · unfold part; simp [h]

theorem ofProject_ofUser (p u : String) (log : List AJob) :
    ofProject p (ofUser u log) = log.filter fun j => j.user == u && j.project == p := by
  unfold ofProject ofUser
  rw [List.filter_filter]
  refine List.filter_congr fun j _ => ?_
  rw [Bool.and_comm]

theorem ppart_used (size d1 d2 : Int) (u p : String) (log : List AJob) :
    (log.map (part size d1 d2 fun u' p' c' => u' == u && p' == p && c' == "USED")).sum =
      usedBetween (ofProject p (ofUser u log)) (alignDown size (d1 + 1)) (alignUp size d2) := by
  rw [ofProject_ofUser]
  unfold usedBetween
  refine sum_filter _ _ _ (fun j h => ?_) (fun j h => ?_) log
  · unfold part; simp only [h]; simp
  · unfold part; simp only [h]; simp

theorem ppart_asked (size d1 d2 : Int) (u p : String) (log : List AJob) :
    (log.map (part size d1 d2 fun u' p' c' => u' == u && p' == p && c' == "ASKED")).sum =
      askedBetween (ofProject p (ofUser u log)) (alignDown size (d1 + 1)) (alignUp size d2) := by
  rw [ofProject_ofUser]
  unfold askedBetween
  refine sum_filter _ _ _ (fun j h => ?_) (fun j h => ?_) log
  · unfold part; simp only [h]; simp
  · unfold part; simp only [h]; simp

/-- A sum over the projects. -/
theorem sum_projects (ks : List String) (hn : ks.Nodup) (u c : String) : ∀ rows : List ARow,
    (∀ r ∈ rows, r.1.project ∈ ks) → (ks.map fun p => psecondsOf rows (u, p, c)).sum = secondsOf rows (u, c)
  | [], _ => by
    rw [sum_zero]
    · rfl
    · intro p _; rfl
  | r :: rows, h => by
    have ih := sum_projects ks hn u c rows (fun r hr => h r (by simp [hr]))
    have e1 : ∀ p, psecondsOf (r :: rows) (u, p, c) =
        (if r.1.project = p then (if (r.1.user, r.1.ctype) = (u, c) then r.2 else 0) else 0) + psecondsOf rows (u, p, c) := by
      intro p
      unfold psecondsOf ofPGroup
      rw [List.filter_cons]
      by_cases hk : (r.1.user, r.1.project, r.1.ctype) = (u, p, c)
      · rw [if_pos (by simpa using hk), List.map_cons, List.sum_cons]
        simp only [Prod.mk.injEq] at hk
        rw [if_pos hk.2.1, if_pos (by rw [hk.1, hk.2.2])]
      · rw [if_neg (by simpa using hk)]
        simp only [Prod.mk.injEq] at hk ⊢
        by_cases hp : r.1.project = p
        · rw [if_pos hp, if_neg (fun hc => hk ⟨hc.1, hp, hc.2⟩), Int.zero_add]
        · rw [if_neg hp, Int.zero_add]
    have e2 : secondsOf (r :: rows) (u, c) = (if (r.1.user, r.1.ctype) = (u, c) then r.2 else 0) + secondsOf rows (u, c) := by
      unfold secondsOf ofGroup
      rw [List.filter_cons]
      by_cases hk : (r.1.user, r.1.ctype) = (u, c)
      · rw [if_pos (by simpa using hk), List.map_cons, List.sum_cons, if_pos hk]
      · rw [if_neg (by simpa using hk), if_neg hk, Int.zero_add]
    have e3 : ∀ (x : Int) (ks : List String), ks.Nodup → r.1.project ∈ ks →
        (ks.map fun p => (if r.1.project = p then x else 0)).sum = x := by
      intro x ks
      induction ks with
      | nil => intro _ hm; simp at hm
      | cons p ks ih2 =>
        intro hnd hm
        rw [List.nodup_cons] at hnd
        rw [List.map_cons, List.sum_cons]
        by_cases hp : r.1.project = p
        · rw [if_pos hp, sum_zero]
          · omega
          · intro q hq
            rw [if_neg]
            intro e
            exact hnd.1 (hp ▸ e ▸ hq)
        · rw [if_neg hp, ih2 hnd.2 (by
            rcases List.mem_cons.1 hm with e | e
            · exact absurd e hp
            · exact e)]
          omega
    have e4 : ∀ (a b : String → Int) (ks : List String), (ks.map fun p => a p + b p).sum = (ks.map a).sum + (ks.map b).sum := by
      intro a b ks
      induction ks with
      | nil => rfl
      | cons p ks ih3 => simp only [List.map_cons, List.sum_cons, ih3]; omega
    rw [e2, ← ih, List.map_congr_left (fun p _ => e1 p), e4, e3 _ ks hn (h r (by simp))]

end Oar.Report
