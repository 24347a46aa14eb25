import Verif.DataJobsLoop
import Verif.SubmissionProps
import Verif.Hierarchy

/-!
# C64: the request scheduled is the one submitted
-/

namespace Oar.Submission

open Oar.Tools

/-! ## Specification -/

/-- Rows have increasing identifiers, starting from 1, and the moldables of a job come together. -/
structure Ordered (db : DB) : Prop where
  jobs : db.jobs.Pairwise (fun a b => a.id < b.id)
  jpos : ∀ j ∈ db.jobs, 0 < j.id
  molds : db.molds.Pairwise (fun a b => a.id < b.id ∧ a.job ≤ b.job)
  groups : db.groups.Pairwise (fun a b => a.id < b.id)
  gpos : ∀ g ∈ db.groups, 0 < g.id
  ng : 0 < db.ng
  descs : db.descs.Pairwise (fun a b => a.group = b.group → a.order < b.order)

/-- Each job has a request with an alternative, each alternative a group and each group a level. -/
def Complete (db : DB) : Prop :=
  ∀ j ∈ db.jobs, requestOf db j.id ≠ [] ∧ ∀ x ∈ requestOf db j.id, x.2 ≠ [] ∧ ∀ y ∈ x.2, y.2 ≠ []

/-- A recorded request as the scheduler should see it: walltime with the security time (or the duration of best-effort
jobs), levels in order, constraints from the properties of the job and of the group. -/
def asRead (sec be : Int) (props : List Char) (req : List (Int × List (List Char × List (Nat × List Char × Count)))) : List (Int × List GReq) :=
  req.map (fun x => (if be ≠ 0 then be else x.1 + sec, x.2.map (fun y => (y.2.map (·.2), constraints props y.1))))

/-- The same request, but the last group of the last alternative appears twice. -/
def LastGroupTwice (r r' : List (Int × List GReq)) : Prop :=
  ∃ l w gs g, r = l ++ [(w, gs ++ [g])] ∧ r' = l ++ [(w, gs ++ [g, g])]

/-! ## The query -/

theorem sortBy_of_pairwise {α : Type} (k : α → Nat) (l : List α) (h : l.Pairwise (fun a b => k a ≤ k b)) : sortBy k l = l := by
  induction l with
  | nil => rfl
  | cons a l ih =>
    rw [List.pairwise_cons] at h
    rw [sortBy, ih h.2]
    cases l with
    | nil => rfl
    | cons b l => rw [insertBy, if_pos (h.1 b (by simp))]

theorem split_sorted {β : Type} (k : β → Nat) (n : Nat) (M : List β) (h : M.Pairwise (fun a b => k a ≤ k b)) :
    M = M.filter (fun m => k m ≤ n) ++ M.filter (fun m => n < k m) := by
  induction M with
  | nil => rfl
  | cons m M ih =>
    rw [List.pairwise_cons] at h
    by_cases hm : k m ≤ n
    · rw [List.filter_cons_of_pos (by simpa using hm), List.filter_cons_of_neg (by simpa using hm), List.cons_append, ← ih h.2]
    · have : M.filter (fun m => k m ≤ n) = [] := by
        apply filter_none
        intro a ha
        have := h.1 a ha
        simp only [decide_eq_false_iff_not]; omega
      rw [List.filter_cons_of_neg (by simpa using hm), this, List.nil_append, List.filter_cons_of_pos (by simpa using hm)]
      have h2 : M.filter (fun m => n < k m) = M := by
        apply filter_all
        intro a ha
        have := h.1 a ha
        simp only [decide_eq_true_eq]; omega
      rw [h2]

theorem flatMap_empty {α β : Type} (l : List α) (f : α → List β) (h : ∀ a ∈ l, f a = []) : l.flatMap f = [] := by
  induction l with
  | nil => rfl
  | cons a l ih => rw [List.flatMap_cons, h a (by simp), ih (fun b hb => h b (List.mem_cons_of_mem _ hb))]; rfl

theorem flatMap_congr' {α β : Type} (l : List α) (f g : α → List β) (h : ∀ a ∈ l, f a = g a) : l.flatMap f = l.flatMap g := by
  induction l with
  | nil => rfl
  | cons a l ih => rw [List.flatMap_cons, List.flatMap_cons, h a (by simp), ih (fun b hb => h b (List.mem_cons_of_mem _ hb))]

theorem flatMap_filter {α β : Type} (l : List α) (p : α → Bool) (f : α → List β) :
    (l.filter p).flatMap f = l.flatMap (fun a => if p a then f a else []) := by
  induction l with
  | nil => rfl
  | cons a l ih =>
    by_cases h : p a = true
    · rw [List.filter_cons_of_pos h, List.flatMap_cons, List.flatMap_cons, ih]; simp [h]
    · rw [List.filter_cons_of_neg h, List.flatMap_cons, ih]; simp [h]

theorem group_by {α β γ : Type} (J : List α) (kJ : α → Nat) (M : List β) (kM : β → Nat) (hJ : J.Pairwise (fun a b => kJ a < kJ b))
    (hM : M.Pairwise (fun a b => kM a ≤ kM b)) (F : β → α → List γ) :
    M.flatMap (fun m => (J.filter (fun j => kJ j = kM m)).flatMap (F m)) =
      J.flatMap (fun j => (M.filter (fun m => kM m = kJ j)).flatMap (fun m => F m j)) := by
  induction J with
  | nil => simp
  | cons j J ih =>
    rw [List.pairwise_cons] at hJ
    have hs := split_sorted kM (kJ j) M hM
    have hlow : ∀ m ∈ M.filter (fun m => kM m ≤ kJ j), J.filter (fun x => kJ x = kM m) = [] := by
      intro m hm
      have hm := (List.mem_filter.1 hm).2
      simp only [decide_eq_true_eq] at hm
      apply filter_none
      intro x hx
      have := hJ.1 x hx
      simp only [decide_eq_false_iff_not]; omega
    have ihB : (M.filter (fun m => kJ j < kM m)).flatMap (fun m => (J.filter (fun x => kJ x = kM m)).flatMap (F m)) =
        J.flatMap (fun j => (M.filter (fun m => kM m = kJ j)).flatMap (fun m => F m j)) := by
      rw [← ih hJ.2]
      conv => rhs; rw [hs]
      rw [List.flatMap_append, flatMap_empty (M.filter (fun m => kM m ≤ kJ j))]
      · rfl
      · intro m hm
        rw [hlow m hm]; rfl
    rw [List.flatMap_cons, ← ihB]
    conv => lhs; rw [hs]
    rw [List.flatMap_append]
    congr 1
    · have : M.filter (fun m => kM m = kJ j) = (M.filter (fun m => kM m ≤ kJ j)).filter (fun m => kM m = kJ j) := by
        rw [List.filter_filter]
        apply List.filter_congr
        intro m _
        by_cases h : kM m = kJ j
        · simp [h]
        · simp [h]
      rw [this, flatMap_filter (M.filter (fun m => kM m ≤ kJ j))]
      apply flatMap_congr'
      intro m hm
      by_cases h : kM m = kJ j
      · rw [List.filter_cons_of_pos (by simpa using h.symm), hlow m hm]
        simp [h]
      · rw [List.filter_cons_of_neg (by simpa using fun e => h e.symm), hlow m hm]
        simp [h]
    · apply flatMap_congr'
      intro m hm
      have hm := (List.mem_filter.1 hm).2
      simp only [decide_eq_true_eq] at hm
      rw [List.filter_cons_of_neg (by simp only [decide_eq_true_eq]; omega)]

/-- The blocks of the rows of the query. -/
def blocks (db : DB) (jids : List Nat) : List JB :=
  (db.jobs.filter (fun j => jids.contains j.id)).map (fun j => ⟨j.id, j.props,
    (db.molds.filter (fun m => m.job = j.id)).map (fun m => ⟨m.id, m.walltime,
      (db.groups.filter (fun g => g.mold = m.id)).map (fun g => ⟨g.id, g.prop,
        (db.descs.filter (fun d => d.group = g.id)).map (fun d => (d.type, d.value))⟩)⟩)⟩)

theorem query_eq (db : DB) (h : Ordered db) (jids : List Nat) : query db jids = rowsOf (blocks db jids) := by
  unfold query
  have h1 : sortBy (fun a : SMold => a.id) db.molds = db.molds :=
    sortBy_of_pairwise _ _ (h.molds.imp fun {a b} hab => Nat.le_of_lt hab.1)
  have h2 : ∀ mid, sortBy (fun a : SGrp => a.id) (db.groups.filter (fun g => g.mold = mid)) = db.groups.filter (fun g => g.mold = mid) := by
    intro mid
    exact sortBy_of_pairwise _ _ ((h.groups.filter _).imp fun {a b} hab => Nat.le_of_lt hab)
  have h3 : ∀ gid, sortBy (fun a : SDesc => a.order) (db.descs.filter (fun d => d.group = gid)) = db.descs.filter (fun d => d.group = gid) := by
    intro gid
    apply sortBy_of_pairwise _ _
    rw [List.pairwise_filter]
    refine h.descs.imp fun {a b} hab ha hb => ?_
    simp only [decide_eq_true_eq] at ha hb
    exact Nat.le_of_lt (hab (by rw [ha, hb]))
  rw [h1]
  simp only [h2, h3]
  have h4 : ∀ m : SMold, db.jobs.filter (fun j => j.id = m.job && jids.contains j.id) =
      (db.jobs.filter (fun j => jids.contains j.id)).filter (fun j => j.id = m.job) := by
    intro m
    rw [List.filter_filter]
  simp only [h4]
  rw [group_by (db.jobs.filter (fun j => jids.contains j.id)) (·.id) db.molds (·.job) (h.jobs.filter _) (h.molds.imp fun {a b} hab => hab.2)
    (fun m j => (db.groups.filter (fun g => g.mold = m.id)).flatMap (fun g => (db.descs.filter (fun d => d.group = g.id)).map (fun d =>
      (⟨j.id, j.props, m.id, m.walltime, g.id, g.prop, (d.type, d.value)⟩ : Row))))]
  unfold rowsOf blocks
  rw [List.flatMap_map]
  apply flatMap_congr'
  intro j _
  unfold rowsJ
  dsimp only
  rw [List.flatMap_map]
  apply flatMap_congr'
  intro m _
  unfold rowsM
  dsimp only
  rw [List.flatMap_map]
  apply flatMap_congr'
  intro g _
  unfold rowsG
  dsimp only
  rw [List.map_map]; rfl

theorem sublist_nodup_of_lt {α : Type} (k : α → Nat) (l : List α) (h : l.Pairwise (fun a b => k a < k b)) : (l.map k).Nodup := by
  rw [List.Nodup, List.pairwise_map]
  exact h.imp fun {a b} hab => Nat.ne_of_lt hab

theorem gidsJ_sub (db : DB) (j : SJob) (g : Nat)
    (hg : g ∈ (db.molds.filter (fun m => m.job = j.id)).flatMap (fun m => (db.groups.filter (fun g => g.mold = m.id)).map (·.id))) :
    ∃ x ∈ db.groups, x.id = g ∧ ∃ m ∈ db.molds, m.id = x.mold ∧ m.job = j.id := by
  obtain ⟨m, hm, hg⟩ := List.mem_flatMap.1 hg
  obtain ⟨x, hx, rfl⟩ := List.mem_map.1 hg
  have hm := List.mem_filter.1 hm
  have hx := List.mem_filter.1 hx
  simp only [decide_eq_true_eq] at hm hx
  exact ⟨x, hx.1, rfl, m, hm.1, hx.2.symm, hm.2⟩

theorem jobs_nodup (l : List SJob) (h : l.Pairwise (fun a b => a.id < b.id)) : (l.map (·.id)).Nodup := sublist_nodup_of_lt (fun x : SJob => x.id) l h
theorem molds_nodup (l : List SMold) (h : l.Pairwise (fun a b => a.id < b.id)) : (l.map (·.id)).Nodup := sublist_nodup_of_lt (fun x : SMold => x.id) l h
theorem groups_nodup (l : List SGrp) (h : l.Pairwise (fun a b => a.id < b.id)) : (l.map (·.id)).Nodup := sublist_nodup_of_lt (fun x : SGrp => x.id) l h

theorem eq_of_lt_pairwise {α : Type} (k : α → Nat) (l : List α) (h : l.Pairwise (fun a b => k a < k b)) (a b : α) (ha : a ∈ l) (hb : b ∈ l)
    (e : k a = k b) : a = b := by
  induction l with
  | nil => cases ha
  | cons c l ih =>
    rw [List.pairwise_cons] at h
    rcases List.mem_cons.1 ha with ha' | ha'
    · rcases List.mem_cons.1 hb with hb' | hb'
      · rw [ha', hb']
      · have := h.1 b hb'; rw [← ha'] at this; omega
    · rcases List.mem_cons.1 hb with hb' | hb'
      · have := h.1 a ha'; rw [← hb'] at this; omega
      · exact ih h.2 ha' hb'

theorem gids_eq (db : DB) (jids : List Nat) : (blocks db jids).flatMap gidsJ =
    (db.jobs.filter (fun j => jids.contains j.id)).flatMap (fun j => (db.molds.filter (fun m => m.job = j.id)).flatMap
      (fun m => (db.groups.filter (fun g => g.mold = m.id)).map (·.id))) := by
  unfold blocks
  rw [List.flatMap_map]
  apply flatMap_congr'
  intro j _
  unfold gidsJ
  dsimp only
  rw [List.flatMap_map]
  apply flatMap_congr'
  intro m _
  unfold gidsM
  dsimp only
  rw [List.map_map]; rfl

theorem blocks_ok (db : DB) (h : Ordered db) (hc : Complete db) (jids : List Nat) : Blocks (blocks db jids) := by
  have hmolds : db.molds.Pairwise (fun a b => a.id < b.id) := h.molds.imp fun {a b} hab => hab.1
  refine ⟨?_, ?_, ?_, ?_, ?_, ?_⟩
  · intro b hb
    obtain ⟨j, hj, rfl⟩ := List.mem_map.1 hb
    have hj := hc j (List.mem_filter.1 hj).1
    rw [requestOf_eq] at hj
    refine ⟨?_, ?_⟩
    · intro e
      exact hj.1 (by
        have : db.molds.filter (fun m => m.job = j.id) = [] := by simpa using e
        rw [this]; rfl)
    · intro mb hmb
      obtain ⟨m, hm, rfl⟩ := List.mem_map.1 hmb
      have hm := hj.2 _ (List.mem_map.2 ⟨m, hm, rfl⟩)
      dsimp only at hm
      unfold groupsView at hm
      refine ⟨?_, ?_⟩
      · intro e
        apply hm.1
        have : db.groups.filter (fun g => g.mold = m.id) = [] := by simpa using e
        rw [this]; rfl
      · intro gb hgb
        obtain ⟨g, hg, rfl⟩ := List.mem_map.1 hgb
        have := hm.2 _ (List.mem_map.2 ⟨g, hg, rfl⟩)
        dsimp only at this ⊢
        intro e
        apply this
        have : db.descs.filter (fun d => d.group = g.id) = [] := by simpa using e
        rw [this]; rfl
  · unfold blocks
    rw [List.map_map]
    exact jobs_nodup _ (h.jobs.filter _)
  · intro h0
    unfold blocks at h0
    rw [List.map_map] at h0
    obtain ⟨j, hj, e⟩ := List.mem_map.1 h0
    have := h.jpos j (List.mem_filter.1 hj).1
    have e : j.id = 0 := e
    omega
  · intro b hb
    obtain ⟨j, hj, rfl⟩ := List.mem_map.1 hb
    dsimp only
    rw [List.map_map]
    exact molds_nodup _ (hmolds.filter _)
  · rw [gids_eq, List.nodup_flatMap]
    refine ⟨?_, ?_⟩
    · intro j _
      rw [List.nodup_flatMap]
      refine ⟨?_, ?_⟩
      · intro m _
        exact groups_nodup _ (h.groups.filter _)
      · refine (hmolds.filter _).imp fun {a b} hab => ?_
        intro g h1 h2
        obtain ⟨x, hx, rfl⟩ := List.mem_map.1 h1
        obtain ⟨y, hy, e⟩ := List.mem_map.1 h2
        have hx := List.mem_filter.1 hx
        have hy := List.mem_filter.1 hy
        have := eq_of_lt_pairwise (fun x : SGrp => x.id) _ h.groups y x hy.1 hx.1 e
        subst this
        simp only [decide_eq_true_eq] at hx hy
        omega
    · refine (h.jobs.filter _).imp fun {a b} hab => ?_
      intro g h1 h2
      obtain ⟨x, hx, e1, m, hm, m1, m2⟩ := gidsJ_sub db a g h1
      obtain ⟨y, hy, e2, n, hn, n1, n2⟩ := gidsJ_sub db b g h2
      have := eq_of_lt_pairwise (fun x : SGrp => x.id) _ h.groups x y hx hy (by rw [e1, e2])
      subst this
      have := eq_of_lt_pairwise (fun x : SMold => x.id) _ hmolds m n hm hn (by rw [m1, n1])
      subst this
      omega
  · rw [gids_eq]
    intro h0
    obtain ⟨j, _, h0⟩ := List.mem_flatMap.1 h0
    obtain ⟨x, hx, e, _⟩ := gidsJ_sub db j 0 h0
    have := h.gpos x hx
    omega

/-! ## The requests read -/

theorem mapLast_map {α β : Type} (f : α → α) (g : β → β) (k : α → β) (l : List α) (h : ∀ a, k (f a) = g (k a)) :
    (mapLast f l).map k = mapLast g (l.map k) := by
  induction l with
  | nil => rfl
  | cons a l ih =>
    cases l with
    | nil => simp [mapLast, h]
    | cons b l =>
      show k a :: (mapLast f (b :: l)).map k = k a :: mapLast g ((b :: l).map k)
      rw [ih]

theorem reqJ_eq (sec be : Int) (db : DB) (j : SJob) :
    (reqJ sec be ⟨j.id, j.props, (db.molds.filter (fun m => m.job = j.id)).map (fun m => ⟨m.id, m.walltime,
      (db.groups.filter (fun g => g.mold = m.id)).map (fun g => ⟨g.id, g.prop,
        (db.descs.filter (fun d => d.group = g.id)).map (fun d => (d.type, d.value))⟩)⟩)⟩).map (·.2) = asRead sec be j.props (requestOf db j.id) := by
  rw [requestOf_eq]
  unfold reqJ asRead reqM reqG groupsView
  simp only [List.map_map]
  apply List.map_congr_left
  intro m _
  simp only [Function.comp, Prod.mk.injEq, true_and, List.map_map]
  apply List.map_congr_left
  intro g _
  simp only [Function.comp, Prod.mk.injEq, and_true, List.map_map]
  rfl

theorem outOf_keys (sec be : Int) (l : List JB) : (outOf sec be l).map (·.1) = l.map (·.jid) := by
  induction l with
  | nil => rfl
  | cons j l ih =>
    cases l with
    | nil => rfl
    | cons k l =>
      show j.jid :: (outOf sec be (k :: l)).map (·.1) = _
      rw [ih]; rfl

theorem outOf_mem (sec be : Int) (l : List JB) (j : JB) (hj : j ∈ l) :
    (j.jid, reqJ sec be j) ∈ outOf sec be l ∨ (j.jid, dup (reqJ sec be j)) ∈ outOf sec be l := by
  induction l with
  | nil => cases hj
  | cons a l ih =>
    cases l with
    | nil =>
      have := List.mem_singleton.1 hj
      subst this
      left; simp [outOf]
    | cons b l =>
      rcases List.mem_cons.1 hj with rfl | hj
      · right; simp [outOf]
      · rcases ih hj with h | h
        · left; exact List.mem_cons_of_mem _ h
        · right; exact List.mem_cons_of_mem _ h

theorem lookup_of_nodup {β : Type} (l : List (Nat × β)) (hn : (l.map (·.1)).Nodup) (k : Nat) (v : β) (h : (k, v) ∈ l) : l.lookup k = some v := by
  induction l with
  | nil => cases h
  | cons x l ih =>
    obtain ⟨a, b⟩ := x
    rw [List.map_cons, List.nodup_cons] at hn
    rcases List.mem_cons.1 h with e | h'
    · cases e; simp [List.lookup]
    · have : (k == a) = false := by
        rw [beq_eq_false_iff_ne]
        rintro rfl
        exact hn.1 (List.mem_map.2 ⟨_, h', rfl⟩)
      simp only [List.lookup, this]
      exact ih hn.2 h'

theorem dup_twice (sec be : Int) (db : DB) (hc : Complete db) (j : SJob) (hj : j ∈ db.jobs) (r : List MReq) (hr : r.map (·.2) = asRead sec be j.props (requestOf db j.id)) :
    LastGroupTwice (asRead sec be j.props (requestOf db j.id)) ((dup r).map (·.2)) := by
  have hd : (dup r).map (·.2) = mapLast (fun m : Int × List GReq => (m.1, m.2 ++ m.2.getLast?.toList)) (r.map (·.2)) :=
    mapLast_map _ _ _ _ (fun _ => rfl)
  rw [hd, hr]
  obtain ⟨hne, hfull⟩ := hc j hj
  generalize hreq : requestOf db j.id = req at hne hfull
  obtain ⟨l, x, rfl⟩ : ∃ l x, req = l ++ [x] := ⟨_, _, (List.dropLast_append_getLast hne).symm⟩
  obtain ⟨hx, _⟩ := hfull x (by simp)
  obtain ⟨w, gs⟩ := x
  obtain ⟨gl, g, rfl⟩ : ∃ l x, gs = l ++ [x] := ⟨_, _, (List.dropLast_append_getLast hx).symm⟩
  unfold asRead
  rw [List.map_append, List.map_cons, List.map_nil, mapLast_append]
  refine ⟨l.map (fun x => (if be ≠ 0 then be else x.1 + sec, x.2.map (fun y => (y.2.map (·.2), constraints j.props y.1)))), if be ≠ 0 then be else w + sec, gl.map (fun y => (y.2.map (·.2), constraints j.props y.1)), (g.2.map (·.2), constraints j.props g.1), ?_, ?_⟩
  · simp only [List.map_append, List.map_cons, List.map_nil]
  · simp only [List.map_append, List.map_cons, List.map_nil, List.getLast?_append, List.getLast?_singleton, Option.some_or, Option.toList_some, List.append_assoc, List.singleton_append]

/-- C64: in tables with ordered and complete requests, the request read for each asked job is the recorded one: all its
alternatives, in order, with the walltime plus the security time, their groups with their levels and the constraints
of the job and of the group; except that the last group of the last alternative may appear twice. -/
theorem data_read (sec be : Int) (db : DB) (ho : Ordered db) (hc : Complete db) (jids : List Nat) (j : SJob) (hj : j ∈ db.jobs) (hi : j.id ∈ jids) :
    ∃ out r, getDataJobs sec be db jids = some out ∧ dataOf out j.id = some r ∧
      (r.map (·.2) = asRead sec be j.props (requestOf db j.id) ∨ LastGroupTwice (asRead sec be j.props (requestOf db j.id)) (r.map (·.2))) := by
  have hb := blocks_ok db ho hc jids
  have hmem : ∃ b ∈ blocks db jids, b.jid = j.id ∧ (reqJ sec be b).map (·.2) = asRead sec be j.props (requestOf db j.id) := by
    refine ⟨_, List.mem_map.2 ⟨j, List.mem_filter.2 ⟨hj, by simpa using hi⟩, rfl⟩, rfl, reqJ_eq sec be db j⟩
  obtain ⟨b, hbm, hbj, hreq⟩ := hmem
  refine ⟨outOf sec be (blocks db jids), ?_⟩
  have hget : getDataJobs sec be db jids = some (outOf sec be (blocks db jids)) := by
    unfold getDataJobs
    rw [query_eq db ho jids]
    exact readRows_blocks sec be _ (List.ne_nil_of_mem hbm) hb
  have hnd : ((outOf sec be (blocks db jids)).reverse.map (·.1)).Nodup := by
    rw [List.map_reverse, List.nodup_reverse, outOf_keys]
    exact hb.jids
  rcases outOf_mem sec be (blocks db jids) b hbm with h | h
  · refine ⟨reqJ sec be b, hget, ?_, Or.inl hreq⟩
    exact lookup_of_nodup _ hnd _ _ (List.mem_reverse.2 (hbj ▸ h))
  · refine ⟨dup (reqJ sec be b), hget, ?_, Or.inr (dup_twice sec be db hc j hj _ hreq)⟩
    exact lookup_of_nodup _ hnd _ _ (List.mem_reverse.2 (hbj ▸ h))

/-- C64: a group which appears twice changes nothing to the resources found for a request. -/
theorem twice_harmless (itvs : ProcSet) (hy : Hierarchy.Hy) (gs : List Hierarchy.Group) (g : Hierarchy.Group) :
    Hierarchy.findJob itvs (gs ++ [g, g]) hy = Hierarchy.findJob itvs (gs ++ [g]) hy := by
  unfold Hierarchy.findJob
  generalize (∅ : ProcSet) = r
  induction gs generalizing r with
  | nil =>
    simp only [List.nil_append, Hierarchy.findJobLoop]
    cases Hierarchy.findGroup itvs hy g with
    | none => rfl
    | some res =>
      dsimp only
      by_cases h : res.card ≠ 0
      · rw [if_pos h, if_pos h, if_pos h]
        congr 1
        rw [Finset.union_assoc, Finset.union_self]
      · rw [if_neg h, if_neg h]
  | cons a gs ih =>
    simp only [List.cons_append, Hierarchy.findJobLoop]
    cases Hierarchy.findGroup itvs hy a with
    | none => rfl
    | some res =>
      dsimp only
      by_cases h : res.card ≠ 0
      · rw [if_pos h, if_pos h, ih]
      · rw [if_neg h, if_neg h]

/-! ## Submission keeps the tables ordered and complete -/

theorem number_pairwise {α : Type} (n : Nat) (l : List α) : (number n l).Pairwise (fun a b => a.1 < b.1) := by
  induction l generalizing n with
  | nil => exact List.Pairwise.nil
  | cons a l ih =>
    rw [number, List.pairwise_cons]
    refine ⟨?_, ih (n + 1)⟩
    rintro ⟨k, b⟩ hb
    have := (mem_number _ _ _ _ hb).1
    show n < k
    omega

theorem groupsFrom_pairwise (n : Nat) (l : List (Nat × Grp)) : (groupsFrom n l).Pairwise (fun a b => a.id < b.id) := by
  unfold groupsFrom
  rw [List.pairwise_map]
  exact number_pairwise n l

theorem descRows_pairwise (gid : Nat) (res : List (List Char × Count)) : (descRows gid res).Pairwise (fun a b => a.order < b.order) := by
  unfold descRows
  rw [List.pairwise_map]
  exact number_pairwise 0 res

theorem descsFrom_pairwise (n : Nat) (l : List (Nat × Grp)) : (descsFrom n l).Pairwise (fun a b => a.group = b.group → a.order < b.order) := by
  induction l generalizing n with
  | nil => exact List.Pairwise.nil
  | cons x l ih =>
    unfold descsFrom
    rw [number, List.flatMap_cons, List.pairwise_append]
    have hd : (descRows n x.2.res).Pairwise (fun a b => a.group = b.group → a.order < b.order) :=
      List.Pairwise.imp (S := fun a b : SDesc => a.group = b.group → a.order < b.order) (fun {a b} hab _ => hab) (descRows_pairwise n x.2.res)
    refine ⟨hd, ih (n + 1), ?_⟩
    intro a ha b hb e
    have h1 := descRows_group _ _ a ha
    have h2 := (descsFrom_group (n + 1) l b hb).1
    simp only at h1
    omega

theorem groupsFrom_ge (n : Nat) (l : List (Nat × Grp)) : ∀ g ∈ groupsFrom n l, n ≤ g.id := by
  intro g hg
  obtain ⟨⟨k, y⟩, hx, rfl⟩ := List.mem_map.1 hg
  exact (mem_number _ _ _ _ hx).1

/-- Tables extended by jobs, moldables, groups and levels keep their order. -/
theorem ordered_extend (db db' : DB) (hv : Valid db) (ho : Ordered db) (rows : List SJob) (new : List SMold) (f : List (Nat × Grp))
    (hj : db'.jobs = db.jobs ++ rows) (hr : rows.Pairwise (fun a b => a.id < b.id)) (hr2 : ∀ r ∈ rows, db.nj ≤ r.id)
    (hm : db'.molds = db.molds ++ new) (hn : new.Pairwise (fun a b => a.id < b.id ∧ a.job ≤ b.job)) (hn2 : ∀ m ∈ new, db.nm ≤ m.id ∧ db.nj ≤ m.job)
    (hg : db'.groups = db.groups ++ groupsFrom db.ng f) (hd : db'.descs = db.descs ++ descsFrom db.ng f) (hng : db.ng ≤ db'.ng) : Ordered db' := by
  refine ⟨?_, ?_, ?_, ?_, ?_, Nat.lt_of_lt_of_le ho.ng hng, ?_⟩
  · rw [hj, List.pairwise_append]
    refine ⟨ho.jobs, hr, fun a ha b hb => ?_⟩
    have := (hv.jobs a ha).1
    have := hr2 b hb
    omega
  · intro j h
    rw [hj] at h
    rcases List.mem_append.1 h with h | h
    · exact ho.jpos j h
    · have := hr2 j h
      have := hv.pos
      omega
  · rw [hm, List.pairwise_append]
    refine ⟨ho.molds, hn, fun a ha b hb => ?_⟩
    have := hv.molds a ha
    have := hn2 b hb
    omega
  · rw [hg, List.pairwise_append]
    refine ⟨ho.groups, groupsFrom_pairwise _ _, fun a ha b hb => ?_⟩
    have := (hv.groups a ha).1
    have := groupsFrom_ge _ _ b hb
    omega
  · intro g h
    rw [hg] at h
    rcases List.mem_append.1 h with h | h
    · exact ho.gpos g h
    · have := groupsFrom_ge _ _ g h
      have := ho.ng
      omega
  · rw [hd, List.pairwise_append]
    refine ⟨ho.descs, descsFrom_pairwise _ _, fun a ha b hb e => ?_⟩
    have := hv.descs a ha
    have := (descsFrom_group _ _ b hb).1
    omega

def moldsOf (dw : Int) (nm jid : Nat) (req : List Inst) : List SMold := (number nm req).map (fun x => ⟨x.1, jid, wall dw x.2.walltime⟩)

theorem addSubjob_ordered (dw : Int) (est : List Char → Int) (date : Int) (db : DB) (hv : Valid db) (ho : Ordered db) (p : Params) (aid index : Nat)
    (cmd : List Char) (h0 : est p.props = 0) : Ordered (addSubjob dw est date db p aid index cmd).2.2.2 := by
  have e : ∃ row : SJob, row.id = db.nj ∧ (addSubjob dw est date db p aid index cmd).2.2.2.jobs = (insRequest dw { db with nj := db.nj + 1, jobs := db.jobs ++ [row] } db.nj p.request).jobs ∧
      (addSubjob dw est date db p aid index cmd).2.2.2.molds = (insRequest dw { db with nj := db.nj + 1, jobs := db.jobs ++ [row] } db.nj p.request).molds ∧
      (addSubjob dw est date db p aid index cmd).2.2.2.groups = (insRequest dw { db with nj := db.nj + 1, jobs := db.jobs ++ [row] } db.nj p.request).groups ∧
      (addSubjob dw est date db p aid index cmd).2.2.2.descs = (insRequest dw { db with nj := db.nj + 1, jobs := db.jobs ++ [row] } db.nj p.request).descs ∧
      (addSubjob dw est date db p aid index cmd).2.2.2.ng = (insRequest dw { db with nj := db.nj + 1, jobs := db.jobs ++ [row] } db.nj p.request).ng := by
    unfold addSubjob
    rw [if_neg (by simp [h0])]
    exact ⟨_, rfl, rfl, rfl, rfl, rfl, rfl⟩
  obtain ⟨row, hid, e1, e2, e3, e4, e5⟩ := e
  have hins := insRequest_eq dw { db with nj := db.nj + 1, jobs := db.jobs ++ [row] } db.nj p.request
    (fun m hm => by have := (hv.molds m hm).2; omega) (fun g hg => (hv.groups g hg).2)
  rw [hins] at e1 e2 e3 e4 e5
  refine ordered_extend db _ hv ho [row] (moldsOf dw db.nm db.nj p.request)
    (flat (blocksOf db.nm p.request)) e1 (List.pairwise_singleton _ _) ?_ e2 ?_ ?_ e3 e4 ?_
  · intro r hr
    have := List.mem_singleton.1 hr
    subst this
    omega
  · unfold moldsOf
    rw [List.pairwise_map]
    exact (number_pairwise _ _).imp fun {a b} hab => ⟨hab, Nat.le_refl _⟩
  · intro m hm
    obtain ⟨⟨k, y⟩, hx, rfl⟩ := List.mem_map.1 hm
    exact ⟨(mem_number _ _ _ _ hx).1, Nat.le_refl _⟩
  · rw [e5]
    exact Nat.le_add_right _ _

theorem addLoop_ordered (dw : Int) (est : List Char → Int) (date : Int) (cmds : List (List Char)) :
    ∀ (db : DB) (p : Params) (aid index : Nat) (ids : List Nat), Valid db → Ordered db → aid < db.nj →
      (∀ k < cmds.length, est (propsAt p k) = 0) → (aid = 0 → ids = []) → Ordered (addLoop dw est date db p aid index cmds ids).2.2 := by
  induction cmds with
  | nil => intro db p aid index ids _ ho _ _ _; exact ho
  | cons c cs ih =>
    intro db p aid index ids hv ho ha hest hids
    have ho1 := addSubjob_ordered dw est date db hv ho p aid index c (hest 0 (by simp))
    obtain ⟨db1, e1, v1, n1, j1, r1, s1⟩ := addSubjob_spec dw est date db hv p aid index c ha (hest 0 (by simp))
    rw [e1] at ho1
    have := ih db1 { p with props := withAdmin p } (if 0 < aid then aid else (ids ++ [db.nj]).headD 0) (index + 1) (ids ++ [db.nj]) v1 ho1
      (by
        split
        · omega
        · rw [hids (by omega)]
          show db.nj < db1.nj
          omega) (by
        intro k hk
        rw [propsAt_succ]
        exact hest (k + 1) (by simpa using hk)) (by
        intro h
        exfalso
        by_cases ha : 0 < aid
        · rw [if_pos ha] at h; omega
        · rw [if_neg ha, hids (by omega)] at h
          have := hv.pos
          have h : db.nj = 0 := h
          omega)
    unfold addLoop
    rw [e1]
    exact this

theorem addArray_ordered (dw : Int) (est : List Char → Int) (date : Int) (db db' : DB) (hv : Valid db) (ho : Ordered db) (p : Params)
    (cmds : List (List Char)) (r : Inst) (hr : p.request = [r]) (h0 : est p.props = 0) (ids : List Nat)
    (h : addArray dw est date db p cmds = some (0, ids, db')) : Ordered db' := by
  rw [addArray_eq dw est date db hv p cmds r hr h0] at h
  have h := Option.some.inj h
  simp only [Prod.mk.injEq] at h
  rw [← h.2.2]
  refine ordered_extend db _ hv ho _ _ (flat (arrBlocks db.nm cmds.length r.groups)) rfl ?_ ?_ rfl ?_ ?_ rfl rfl (Nat.le_add_right _ _)
  · rw [List.pairwise_map]
    exact (number_pairwise 0 cmds).imp fun {a b} hab => by
      show db.nj + a.1 < db.nj + b.1
      omega
  · intro x hx
    obtain ⟨y, _, rfl⟩ := List.mem_map.1 hx
    exact Nat.le_add_right _ _
  · rw [List.pairwise_map]
    have : ∀ (n s len : Nat), (number n (List.range' s len)).Pairwise (fun a b => a.1 < b.1 ∧ a.2 ≤ b.2) := by
      intro n s len
      induction len generalizing n s with
      | zero => exact List.Pairwise.nil
      | succ len ih =>
        rw [List.range'_succ, number, List.pairwise_cons]
        refine ⟨?_, ih _ _⟩
        rintro ⟨k, y⟩ hb
        have := mem_number _ _ _ _ hb
        rw [List.mem_range'_1] at this
        show n < k ∧ s ≤ y
        omega
    exact (this _ _ _).imp fun {a b} hab => hab
  · intro m hm
    obtain ⟨⟨k, y⟩, hx, rfl⟩ := List.mem_map.1 hm
    have := mem_number _ _ _ _ hx
    rw [List.mem_range'_1] at this
    exact ⟨this.1, this.2.2.1⟩

/-- The request asked is complete. -/
def FullRequest (req : List Inst) : Prop := req ≠ [] ∧ ∀ i ∈ req, i.groups ≠ [] ∧ ∀ g ∈ i.groups, g.res ≠ []

theorem number_ne_nil {α : Type} (n : Nat) (l : List α) (h : l ≠ []) : number n l ≠ [] := by
  cases l with
  | nil => exact absurd rfl h
  | cons a l => simp [number]

theorem expected_full (dw : Int) (req : List Inst) (h : FullRequest req) :
    expected dw req ≠ [] ∧ ∀ x ∈ expected dw req, x.2 ≠ [] ∧ ∀ y ∈ x.2, y.2 ≠ [] := by
  unfold expected
  refine ⟨by simpa using h.1, ?_⟩
  intro x hx
  obtain ⟨i, hi, rfl⟩ := List.mem_map.1 hx
  refine ⟨by simpa using (h.2 i hi).1, ?_⟩
  intro y hy
  obtain ⟨g, hg, rfl⟩ := List.mem_map.1 hy
  exact number_ne_nil 0 _ ((h.2 i hi).2 g hg)

/-- Submissions keep the tables ordered and complete. -/
theorem submit_keeps (quotas : Bool) (queues : List String) (rules : Params → Option Params) (dw : Int) (est : List Char → Int) (date : Int)
    (db db' : DB) (hv : Valid db) (ho : Ordered db) (hc : Complete db) (p p3 : Params) (ha : Admitted quotas queues rules p p3) (hf : Feasible est p3)
    (hreq : FullRequest p3.request) (ids : List Nat) (h : submit quotas queues rules dw est date db p = some (0, ids, db')) :
    Valid db' ∧ Ordered db' ∧ Complete db' := by
  obtain ⟨db1, rows, e, v, nj, hj, hid, _, _, _, _, rec, same⟩ := submit_creates quotas queues rules dw est date db hv p p3 ha hf
  rw [h] at e
  have e := Option.some.inj e
  simp only [Prod.mk.injEq] at e
  obtain ⟨_, _, rfl⟩ := e
  refine ⟨v, ?_, ?_⟩
  · rw [submit_admitted _ _ _ _ _ _ _ _ _ ha] at h
    unfold Feasible at hf
    by_cases hcase : 1 < asked p3 ∧ p3.useKey = false
    · rw [if_pos hcase] at h hf
      obtain ⟨h0, r, hr⟩ := hf
      obtain ⟨x, hx, hx2⟩ := Option.map_eq_some_iff.1 h
      obtain ⟨x1, x2, x3⟩ := x
      have hx0 : x1 = 0 := by
        rw [addArray_eq dw est date db hv p3 _ r hr h0] at hx
        have hx := Option.some.inj hx
        simp only [Prod.mk.injEq] at hx
        exact hx.1.symm
      subst hx0
      have := addArray_ordered dw est date db x3 hv ho p3 _ r hr h0 x2 hx
      simp only [Prod.mk.injEq] at hx2
      rw [← hx2.2.2]
      exact this
    · rw [if_neg hcase] at h hf
      have h := Option.some.inj h
      have := addLoop_ordered dw est date (commands p3) db p3 0 1 [] hv ho hv.pos (by rw [commands_length]; exact hf) (fun _ => rfl)
      rw [h] at this
      exact this
  · intro j hjm
    rw [hj] at hjm
    rcases List.mem_append.1 hjm with hjm | hjm
    · have := (same j.id (hv.jobs j hjm).1).1
      rw [this]
      exact hc j hjm
    · have : j.id ∈ rows.map (·.id) := List.mem_map.2 ⟨j, hjm, rfl⟩
      rw [hid, List.mem_range'_1] at this
      have := (rec (j.id - db.nj) (by omega)).1
      rw [show db.nj + (j.id - db.nj) = j.id by omega] at this
      rw [this]
      exact expected_full dw _ hreq

/-- C64: a scheduler reads, for each job of an accepted submission, the request that was asked: every alternative with
its walltime (or the default one) plus the security time, its groups, levels and counts in order, with the properties
of the job and of the group; except that the last group of the last alternative may appear twice. -/
theorem submitted_is_scheduled (quotas : Bool) (queues : List String) (rules : Params → Option Params) (dw : Int) (est : List Char → Int) (date : Int)
    (db db' : DB) (hv : Valid db) (ho : Ordered db) (hc : Complete db) (p p3 : Params) (ha : Admitted quotas queues rules p p3) (hf : Feasible est p3)
    (hreq : FullRequest p3.request) (ids : List Nat) (h : submit quotas queues rules dw est date db p = some (0, ids, db'))
    (sec be : Int) (jids : List Nat) (jid : Nat) (hj : jid ∈ ids) (hi : jid ∈ jids) :
    ∃ j out r, j ∈ db'.jobs ∧ j.id = jid ∧ getDataJobs sec be db' jids = some out ∧ dataOf out jid = some r ∧
      (r.map (·.2) = asRead sec be j.props (expected dw p3.request) ∨ LastGroupTwice (asRead sec be j.props (expected dw p3.request)) (r.map (·.2))) := by
  obtain ⟨v', o', c'⟩ := submit_keeps quotas queues rules dw est date db db' hv ho hc p p3 ha hf hreq ids h
  obtain ⟨db1, rows, e, _, _, hjobs, hid, _, _, _, _, rec, _⟩ := submit_creates quotas queues rules dw est date db hv p p3 ha hf
  rw [h] at e
  have e := Option.some.inj e
  simp only [Prod.mk.injEq] at e
  obtain ⟨_, rfl, rfl⟩ := e
  have hmem := hj
  rw [← hid] at hmem
  obtain ⟨j, hjm, rfl⟩ := List.mem_map.1 hmem
  have hjm' : j ∈ db'.jobs := by rw [hjobs]; exact List.mem_append_right _ hjm
  obtain ⟨out, r, h1, h2, h3⟩ := data_read sec be db' o' c' jids j hjm' hi
  rw [List.mem_range'_1] at hj
  have := (rec (j.id - db.nj) (by omega)).1
  rw [show db.nj + (j.id - db.nj) = j.id by omega] at this
  rw [this] at h3
  exact ⟨j, out, r, hjm', rfl, h1, h2, h3⟩

instance : DecidableEq GReq := instDecidableEqProd
instance : DecidableEq MReq := instDecidableEqProd
instance : DecidableEq (Nat × List MReq) := instDecidableEqProd
instance : DecidableEq (Option (List (Nat × List MReq))) := inferInstance

theorem exDB_ordered : Ordered exDB := by
  refine ⟨?_, ?_, ?_, ?_, ?_, ?_, ?_⟩ <;> decide

theorem exDB_complete : Complete exDB := by
  unfold Complete; decide

/-- C64, not vacuous: a moldable job with two groups, read with an older job: its last group comes once, but twice for
the older one. -/
example : FullRequest exParams.request ∧ (submit true ["default"] some 3600 (fun _ => 0) 5 exDB exParams).bind (fun x => getDataJobs 60 0 x.2.2 [4, 10]) = some [
      (4, [(7, 3660, [([(txt "host", .num (txt "1"))], none), ([(txt "host", .num (txt "1"))], none)])]),
      (10, [(20, 120, [([(txt "host", .num (txt "2"))], some (txt "mem>1")), ([(txt "cpu", .all)], none)]),
        (21, 3660, [([(txt "host", .num (txt "1"))], none)])])] := by
  refine ⟨?_, by decide +kernel⟩
  unfold FullRequest
  decide

/-- C64 (violated without the order): when the moldables of two jobs submitted at the same time are interleaved, a job
loses its first alternatives. -/
theorem interleaved_violated :
    let db : DB := { exDB with
      jobs := [⟨1, 1, 1, [], "Waiting", "None", 0, [], "default"⟩, ⟨2, 2, 1, [], "Waiting", "None", 0, [], "default"⟩]
      molds := [⟨1, 1, 60⟩, ⟨2, 2, 60⟩, ⟨3, 1, 90⟩]
      groups := [⟨1, 1, []⟩, ⟨2, 2, []⟩, ⟨3, 3, []⟩]
      descs := [⟨1, txt "host", .num (txt "9"), 0⟩, ⟨2, txt "host", .num (txt "1"), 0⟩, ⟨3, txt "host", .num (txt "5"), 0⟩] }
    (requestOf db 1).length = 2 ∧ ∃ out, getDataJobs 0 0 db [1, 2] = some out ∧
      dataOf out 1 = some [(3, 90, [([(txt "host", .num (txt "5"))], none)])] := by
  exact ⟨by decide, _, rfl, by decide +kernel⟩

end Oar.Submission
