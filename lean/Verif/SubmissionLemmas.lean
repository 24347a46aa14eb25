import Verif.Submission

/-!
# Specification and lemmas for the submission of jobs (C38, C39)
-/

namespace Oar.Submission

open Oar.Tools

/-! ## Specification -/

/-- The request recorded for a job: for each moldable description its walltime and its groups, for each group its
property and its levels (order, name, count). -/
def requestOf (db : DB) (jid : Nat) : List (Int × List (List Char × List (Nat × List Char × Count))) :=
  (db.molds.filter (fun m => m.job = jid)).map (fun m => (m.walltime,
    (db.groups.filter (fun g => g.mold = m.id)).map (fun g => (g.prop,
      (db.descs.filter (fun d => d.group = g.id)).map (fun d => (d.order, d.type, d.value))))))

/-- What should be recorded for a request: walltimes by default, levels numbered from 0. -/
def expected (dw : Int) (req : List Inst) : List (Int × List (List Char × List (Nat × List Char × Count))) :=
  req.map (fun i => (wall dw i.walltime, i.groups.map (fun g => (g.prop, number 0 g.res))))

def typesOf (db : DB) (jid : Nat) : List (List Char) := (db.types.filter (fun x => x.1 = jid)).map (·.2)
def depsOf (db : DB) (jid : Nat) : List Nat := (db.deps.filter (fun x => x.1 = jid)).map (·.2)
def logsOf (db : DB) (jid : Nat) : List (String × Int) := (db.logs.filter (fun x => x.1 = jid)).map (·.2)

/-- Identifiers already used are below the next ones, which are positive, and rows refer to existing rows. -/
structure Valid (db : DB) : Prop where
  pos : 0 < db.nj
  jobs : ∀ j ∈ db.jobs, j.id < db.nj ∧ j.arrayId < db.nj
  molds : ∀ m ∈ db.molds, m.id < db.nm ∧ m.job < db.nj
  groups : ∀ g ∈ db.groups, g.id < db.ng ∧ g.mold < db.nm
  descs : ∀ d ∈ db.descs, d.group < db.ng
  types : ∀ x ∈ db.types, x.1 < db.nj
  deps : ∀ x ∈ db.deps, x.1 < db.nj
  logs : ∀ x ∈ db.logs, x.1 < db.nj

/-! ## Numbering -/

section
variable {α β : Type}

theorem mem_number (n : Nat) (l : List α) (k : Nat) (a : α) (h : (k, a) ∈ number n l) : n ≤ k ∧ k < n + l.length ∧ a ∈ l := by
  induction l generalizing n with
  | nil => cases h
  | cons b l ih =>
    rcases List.mem_cons.1 h with h | h
    · cases h; simp
    · obtain ⟨h1, h2, h3⟩ := ih (n + 1) h
      refine ⟨by omega, ?_, List.mem_cons_of_mem _ h3⟩
      simp only [List.length_cons]; omega

theorem number_fst (n : Nat) (l : List α) : (number n l).map (·.1) = List.range' n l.length := by
  induction l generalizing n with
  | nil => rfl
  | cons a l ih => simp [number, ih, List.range'_succ]

theorem number_snd (n : Nat) (l : List α) : (number n l).map (·.2) = l := by
  induction l generalizing n with
  | nil => rfl
  | cons a l ih => simp [number, ih]

theorem number_length (n : Nat) (l : List α) : (number n l).length = l.length := by
  induction l generalizing n with
  | nil => rfl
  | cons a l ih => simp [number, ih]

theorem number_map (f : α → β) (n : Nat) (l : List α) : number n (l.map f) = (number n l).map (fun x => (x.1, f x.2)) := by
  induction l generalizing n with
  | nil => rfl
  | cons a l ih => simp [number, ih]

theorem number_append (n : Nat) (l m : List α) : number n (l ++ m) = number n l ++ number (n + l.length) m := by
  induction l generalizing n with
  | nil => simp [number]
  | cons a l ih =>
    simp only [List.cons_append, number, ih, List.length_cons]
    congr 3
    omega

theorem number_filter_snd (p : α → Bool) (f : α → β) (n : Nat) (l : List α) :
    ((number n l).filter (fun x => p x.2)).map (fun x => f x.2) = (l.filter p).map f := by
  induction l generalizing n with
  | nil => rfl
  | cons a l ih =>
    simp only [number]
    by_cases h : p a = true
    · rw [List.filter_cons_of_pos (by simpa using h), List.filter_cons_of_pos h]; simp [ih]
    · rw [List.filter_cons_of_neg (by simpa using h), List.filter_cons_of_neg h, ih]

theorem number_getElem (n : Nat) (l : List α) (i : Nat) (a : α) (h : l[i]? = some a) : (n + i, a) ∈ number n l := by
  induction l generalizing n i with
  | nil => simp at h
  | cons b l ih =>
    cases i with
    | zero => simp at h; simp [number, h]
    | succ i =>
      simp at h
      have := ih (n + 1) i h
      simp only [number, List.mem_cons]
      right
      rw [show n + (i + 1) = n + 1 + i by omega]; exact this

theorem number_mem_getElem (n : Nat) (l : List α) (k : Nat) (a : α) (h : (k, a) ∈ number n l) : l[k - n]? = some a := by
  induction l generalizing n with
  | nil => cases h
  | cons b l ih =>
    rcases List.mem_cons.1 h with h | h
    · cases h; simp
    · have h1 := mem_number _ _ _ _ h
      have := ih (n + 1) h
      rw [show k - n = (k - (n + 1)) + 1 by omega, List.getElem?_cons_succ]; exact this

theorem range'_zip (n : Nat) (l : List α) : (List.range' n l.length).zip l = number n l := by
  induction l generalizing n with
  | nil => rfl
  | cons a l ih => simp [List.range'_succ, number, ih]

end

theorem filter_none {α : Type} (l : List α) (p : α → Bool) (h : ∀ a ∈ l, p a = false) : l.filter p = [] := by
  rw [List.filter_eq_nil_iff]
  intro a ha
  simp [h a ha]

theorem filter_all {α : Type} (l : List α) (p : α → Bool) (h : ∀ a ∈ l, p a = true) : l.filter p = l :=
  List.filter_eq_self.2 h

/-! ## Groups and descriptions -/

theorem descRows_group (gid : Nat) (res : List (List Char × Count)) : ∀ d ∈ descRows gid res, d.group = gid := by
  intro d hd
  obtain ⟨x, _, rfl⟩ := List.mem_map.1 hd
  rfl

theorem descRows_view (gid : Nat) (res : List (List Char × Count)) :
    (descRows gid res).map (fun d => (d.order, d.type, d.value)) = number 0 res := by
  unfold descRows
  rw [List.map_map]
  conv => rhs; rw [← List.map_id (number 0 res)]
  apply List.map_congr_left
  rintro ⟨k, r, c⟩ _
  rfl

/-- The descriptions of the groups numbered from `n`. -/
def descsFrom (n : Nat) (l : List (Nat × Grp)) : List SDesc := (number n l).flatMap (fun x => descRows x.1 x.2.2.res)

theorem descsFrom_group (n : Nat) (l : List (Nat × Grp)) : ∀ d ∈ descsFrom n l, n ≤ d.group ∧ d.group < n + l.length := by
  intro d hd
  obtain ⟨⟨k, x⟩, hx, hd⟩ := List.mem_flatMap.1 hd
  rw [descRows_group _ _ d hd]
  have := mem_number _ _ _ _ hx
  exact ⟨this.1, this.2.1⟩

theorem descsFrom_filter (n : Nat) (l : List (Nat × Grp)) (k : Nat) (x : Nat × Grp) (h : (k, x) ∈ number n l) :
    (descsFrom n l).filter (fun d => d.group = k) = descRows k x.2.res := by
  induction l generalizing n with
  | nil => cases h
  | cons y l ih =>
    unfold descsFrom
    simp only [number, List.flatMap_cons, List.filter_append]
    rcases List.mem_cons.1 h with h | h
    · cases h
      rw [filter_all _ _ (fun d hd => by simpa using descRows_group _ _ d hd)]
      rw [filter_none ((number (k + 1) l).flatMap (fun x => descRows x.1 x.2.2.res))]
      · simp
      · intro d hd
        have := descsFrom_group (k + 1) l d hd
        simp only [decide_eq_false_iff_not]; omega
    · have hk := mem_number _ _ _ _ h
      rw [filter_none (descRows n y.2.res)]
      · exact ih (n + 1) h
      · intro d hd
        have := descRows_group _ _ d hd
        simp only [decide_eq_false_iff_not]; omega

/-- Groups of several moldables, in order. -/
def flat (blocks : List (Nat × List Grp)) : List (Nat × Grp) := blocks.flatMap (fun b => b.2.map (fun g => (b.1, g)))

def groupsFrom (n : Nat) (l : List (Nat × Grp)) : List SGrp := (number n l).map (fun x => ⟨x.1, x.2.1, x.2.2.prop⟩)

/-- The groups of a moldable with their descriptions. -/
def groupsView (groups : List SGrp) (descs : List SDesc) (mid : Nat) : List (List Char × List (Nat × List Char × Count)) :=
  (groups.filter (fun g => g.mold = mid)).map (fun g => (g.prop, (descs.filter (fun d => d.group = g.id)).map (fun d => (d.order, d.type, d.value))))

theorem requestOf_eq (db : DB) (jid : Nat) : requestOf db jid =
    (db.molds.filter (fun m => m.job = jid)).map (fun m => (m.walltime, groupsView db.groups db.descs m.id)) := rfl

theorem flat_filter (blocks : List (Nat × List Grp)) (hn : (blocks.map (·.1)).Nodup) (b : Nat × List Grp) (hb : b ∈ blocks) :
    ((flat blocks).filter (fun x => x.1 = b.1)).map (·.2) = b.2 := by
  induction blocks with
  | nil => cases hb
  | cons a blocks ih =>
    rw [List.map_cons, List.nodup_cons] at hn
    unfold flat
    rw [List.flatMap_cons, List.filter_append, List.map_append]
    have hrest : ∀ k, k ∉ blocks.map (·.1) → (flat blocks).filter (fun x => x.1 = k) = [] := by
      intro k hk
      apply filter_none
      intro x hx
      obtain ⟨c, hc, hx⟩ := List.mem_flatMap.1 hx
      obtain ⟨g, _, rfl⟩ := List.mem_map.1 hx
      simp only [decide_eq_false_iff_not]
      intro h
      exact hk (List.mem_map.2 ⟨c, hc, h⟩)
    rcases List.mem_cons.1 hb with rfl | hb
    · rw [filter_all (b.2.map _) _ (by
        intro x hx
        obtain ⟨g, _, rfl⟩ := List.mem_map.1 hx
        simp)]
      have := hrest b.1 hn.1
      unfold flat at this
      rw [this, List.map_map]
      simp [Function.comp_def]
    · rw [filter_none (a.2.map _)]
      · have := ih hn.2 hb
        unfold flat at this
        rw [this]; simp
      · intro x hx
        obtain ⟨g, _, rfl⟩ := List.mem_map.1 hx
        simp only [decide_eq_false_iff_not]
        intro h
        exact hn.1 (h ▸ List.mem_map.2 ⟨b, hb, rfl⟩)

/-- The groups added for a moldable are read back with their levels. -/
theorem blocks_view (oldG : List SGrp) (oldD : List SDesc) (n : Nat) (blocks : List (Nat × List Grp))
    (hn : (blocks.map (·.1)).Nodup) (hG : ∀ g ∈ oldG, ∀ b ∈ blocks, g.mold ≠ b.1) (hD : ∀ d ∈ oldD, d.group < n)
    (b : Nat × List Grp) (hb : b ∈ blocks) :
    groupsView (oldG ++ groupsFrom n (flat blocks)) (oldD ++ descsFrom n (flat blocks)) b.1 = b.2.map (fun g => (g.prop, number 0 g.res)) := by
  unfold groupsView
  rw [List.filter_append, filter_none oldG _ (fun g hg => by simpa using hG g hg b hb), List.nil_append]
  have h1 : (groupsFrom n (flat blocks)).filter (fun g => g.mold = b.1) =
      ((number n (flat blocks)).filter (fun x => x.2.1 = b.1)).map (fun x => ⟨x.1, x.2.1, x.2.2.prop⟩) := by
    unfold groupsFrom
    rw [List.filter_map]; rfl
  rw [h1, List.map_map]
  have h2 : ∀ x ∈ (number n (flat blocks)).filter (fun x => x.2.1 = b.1),
      ((fun g : SGrp => (g.prop, ((oldD ++ descsFrom n (flat blocks)).filter (fun d => d.group = g.id)).map (fun d => (d.order, d.type, d.value)))) ∘
        fun x : Nat × Nat × Grp => (⟨x.1, x.2.1, x.2.2.prop⟩ : SGrp)) x = (fun y : Nat × Grp => (y.2.prop, number 0 y.2.res)) x.2 := by
    rintro ⟨k, y⟩ hx
    have hx := (List.mem_filter.1 hx).1
    have hk := mem_number _ _ _ _ hx
    simp only [Function.comp]
    rw [List.filter_append, filter_none oldD _ (fun d hd => by have := hD d hd; simp only [decide_eq_false_iff_not]; omega), List.nil_append,
      descsFrom_filter n _ k y hx, descRows_view]
  rw [List.map_congr_left h2]
  rw [number_filter_snd (fun y : Nat × Grp => decide (y.1 = b.1)) (fun y : Nat × Grp => (y.2.prop, number 0 y.2.res))]
  conv => rhs; rw [← flat_filter blocks hn b hb, List.map_map]
  rfl

/-- The groups of an older moldable are unchanged. -/
theorem old_view (oldG : List SGrp) (oldD : List SDesc) (n : Nat) (blocks : List (Nat × List Grp)) (mid : Nat)
    (hmid : ∀ b ∈ blocks, b.1 ≠ mid) (hG : ∀ g ∈ oldG, g.id < n) :
    groupsView (oldG ++ groupsFrom n (flat blocks)) (oldD ++ descsFrom n (flat blocks)) mid = groupsView oldG oldD mid := by
  unfold groupsView
  rw [List.filter_append, filter_none (groupsFrom n (flat blocks))]
  · rw [List.append_nil]
    apply List.map_congr_left
    intro g hg
    have hid := hG g (List.mem_filter.1 hg).1
    rw [List.filter_append, filter_none (descsFrom n (flat blocks)), List.append_nil]
    intro d hd
    have := descsFrom_group _ _ d hd
    simp only [decide_eq_false_iff_not]; omega
  · intro g hg
    obtain ⟨⟨k, y⟩, hx, rfl⟩ := List.mem_map.1 hg
    have := (mem_number _ _ _ _ hx).2.2
    obtain ⟨b, hb, hy⟩ := List.mem_flatMap.1 this
    obtain ⟨g', _, rfl⟩ := List.mem_map.1 hy
    simp only [decide_eq_false_iff_not]
    exact hmid b hb

/-! ## Insertion of one request -/

/-- A table of groups extended by blocks. -/
def addBlocks (db : DB) (blocks : List (Nat × List Grp)) : DB :=
  { db with ng := db.ng + (flat blocks).length, groups := db.groups ++ groupsFrom db.ng (flat blocks), descs := db.descs ++ descsFrom db.ng (flat blocks) }

theorem insGroups_eq (db : DB) (mid : Nat) (gs : List Grp) (h : ∀ g ∈ db.groups, g.mold ≠ mid) :
    insGroups db mid gs = addBlocks db [(mid, gs)] := by
  have hf : flat [(mid, gs)] = gs.map (fun g => (mid, g)) := by simp [flat]
  unfold insGroups addBlocks
  dsimp only
  rw [hf]
  have hg : (number db.ng gs).map (fun x => (⟨x.1, mid, x.2.prop⟩ : SGrp)) = groupsFrom db.ng (gs.map (fun g => (mid, g))) := by
    unfold groupsFrom
    rw [number_map, List.map_map]; rfl
  have hids : ((db.groups ++ (number db.ng gs).map (fun x => (⟨x.1, mid, x.2.prop⟩ : SGrp))).filter (fun g => g.mold = mid)).map (·.id) =
      List.range' db.ng gs.length := by
    rw [List.filter_append, filter_none db.groups _ (fun g hg => by simpa using h g hg), List.nil_append, filter_all, List.map_map, ← number_fst]
    · rfl
    · intro g hg
      obtain ⟨x, _, rfl⟩ := List.mem_map.1 hg
      simp
  rw [hids, range'_zip, ← hg]
  have hd : (number db.ng gs).flatMap (fun x => descRows x.1 x.2.res) = descsFrom db.ng (gs.map (fun g => (mid, g))) := by
    unfold descsFrom
    rw [number_map, List.flatMap_map]
  rw [hd]
  simp

theorem addBlocks_append (db : DB) (a b : List (Nat × List Grp)) : addBlocks (addBlocks db a) b = addBlocks db (a ++ b) := by
  have hf : flat (a ++ b) = flat a ++ flat b := by simp [flat]
  unfold addBlocks groupsFrom descsFrom
  dsimp only
  rw [hf, number_append, List.map_append, List.flatMap_append, List.length_append]
  simp [List.append_assoc, Nat.add_assoc]

theorem insGroups_fold (blocks : List (Nat × List Grp)) (db : DB) (hn : (blocks.map (·.1)).Nodup)
    (h : ∀ g ∈ db.groups, ∀ b ∈ blocks, g.mold ≠ b.1) :
    blocks.foldl (fun d x => insGroups d x.1 x.2) db = addBlocks db blocks := by
  induction blocks generalizing db with
  | nil => simp [addBlocks, flat, groupsFrom, descsFrom, number]
  | cons b blocks ih =>
    rw [List.map_cons, List.nodup_cons] at hn
    rw [List.foldl_cons, insGroups_eq db b.1 b.2 (fun g hg => h g hg b (by simp))]
    rw [ih _ hn.2, addBlocks_append]
    · rfl
    · intro g hg c hc
      unfold addBlocks at hg
      rcases List.mem_append.1 hg with hg | hg
      · exact h g hg c (List.mem_cons_of_mem _ hc)
      · obtain ⟨⟨k, y⟩, hx, rfl⟩ := List.mem_map.1 hg
        have hy := (mem_number _ _ _ _ hx).2.2
        obtain ⟨b', hb', hy⟩ := List.mem_flatMap.1 hy
        have hb' := List.mem_singleton.1 hb'
        subst hb'
        obtain ⟨g', _, rfl⟩ := List.mem_map.1 hy
        intro hh
        exact hn.1 (List.mem_map.2 ⟨c, hc, hh.symm⟩)

/-- The blocks of a request whose moldables are numbered from `n`. -/
def blocksOf (n : Nat) (req : List Inst) : List (Nat × List Grp) := (number n req).map (fun x => (x.1, x.2.groups))

theorem blocksOf_fst (n : Nat) (req : List Inst) : (blocksOf n req).map (·.1) = List.range' n req.length := by
  unfold blocksOf
  rw [List.map_map, ← number_fst]; rfl

def withMolds (dw : Int) (db : DB) (jid : Nat) (req : List Inst) : DB :=
  { db with nm := db.nm + req.length, molds := db.molds ++ (number db.nm req).map (fun x => ⟨x.1, jid, wall dw x.2.walltime⟩) }

theorem insRequest_eq (dw : Int) (db : DB) (jid : Nat) (req : List Inst) (hm : ∀ m ∈ db.molds, m.job ≠ jid)
    (hg : ∀ g ∈ db.groups, g.mold < db.nm) :
    insRequest dw db jid req = addBlocks (withMolds dw db jid req) (blocksOf db.nm req) := by
  have hids : ((withMolds dw db jid req).molds.filter (fun m => m.job = jid)).map (·.id) = List.range' db.nm req.length := by
    show ((db.molds ++ (number db.nm req).map (fun x => (⟨x.1, jid, wall dw x.2.walltime⟩ : SMold))).filter (fun m => m.job = jid)).map (·.id) = _
    rw [List.filter_append, filter_none db.molds _ (fun m h => by simpa using hm m h), List.nil_append, filter_all, List.map_map, ← number_fst]
    · rfl
    · intro m h
      obtain ⟨x, _, rfl⟩ := List.mem_map.1 h
      simp
  show (((withMolds dw db jid req).molds.filter (fun m => m.job = jid)).map (·.id) |>.zip req).foldl (fun d x => insGroups d x.1 x.2.groups) (withMolds dw db jid req) = _
  rw [hids, range'_zip]
  have : (number db.nm req).foldl (fun d x => insGroups d x.1 x.2.groups) (withMolds dw db jid req) =
      (blocksOf db.nm req).foldl (fun d x => insGroups d x.1 x.2) (withMolds dw db jid req) := by
    unfold blocksOf
    rw [List.foldl_map]
  rw [this, insGroups_fold]
  · rw [blocksOf_fst]
    exact List.nodup_range' _
  · intro g h b hb
    have h1 := hg g h
    have hb1 : b.1 ∈ (blocksOf db.nm req).map (·.1) := List.mem_map.2 ⟨b, hb, rfl⟩
    rw [blocksOf_fst, List.mem_range'_1] at hb1
    omega

end Oar.Submission
