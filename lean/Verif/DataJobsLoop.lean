import Verif.DataJobs

/-!
# The loop of `get_data_jobs` (C64)
-/

namespace Oar.Submission

/-! ## Rows in blocks -/

structure GB where
  gid : Nat
  prop : List Char
  levels : List (List Char × Count)

structure MB where
  mid : Nat
  wall : Int
  groups : List GB

structure JB where
  jid : Nat
  props : List Char
  molds : List MB

def rowsG (j : JB) (m : MB) (g : GB) : List Row := g.levels.map (fun v => ⟨j.jid, j.props, m.mid, m.wall, g.gid, g.prop, v⟩)
def rowsM (j : JB) (m : MB) : List Row := m.groups.flatMap (rowsG j m)
def rowsJ (j : JB) : List Row := j.molds.flatMap (rowsM j)
def rowsOf (l : List JB) : List Row := l.flatMap rowsJ

def reqG (j : JB) (g : GB) : GReq := (g.levels, constraints j.props g.prop)
def reqM (sec be : Int) (j : JB) (m : MB) : MReq := (m.mid, if be ≠ 0 then be else m.wall + sec, m.groups.map (reqG j))
def reqJ (sec be : Int) (j : JB) : List MReq := j.molds.map (reqM sec be j)

/-- The last group of the last moldable twice. -/
def dup (l : List MReq) : List MReq := mapLast (fun m => (m.1, m.2.1, m.2.2 ++ m.2.2.getLast?.toList)) l

def gidsM (m : MB) : List Nat := m.groups.map (·.gid)
def gidsJ (j : JB) : List Nat := j.molds.flatMap gidsM

/-- No empty request. -/
def FullM (m : MB) : Prop := m.groups ≠ [] ∧ ∀ g ∈ m.groups, g.levels ≠ []
def FullJ (j : JB) : Prop := j.molds ≠ [] ∧ ∀ m ∈ j.molds, FullM m

theorem mapLast_append {α : Type} (f : α → α) (l : List α) (a : α) : mapLast f (l ++ [a]) = l ++ [f a] := by
  induction l with
  | nil => rfl
  | cons b l ih =>
    cases l with
    | nil => rfl
    | cons c l =>
      show b :: mapLast f ((c :: l) ++ [a]) = _
      rw [ih]; rfl

/-! ## One group -/

theorem enter_same (sec be : Int) (s : St) (x : Row) (h1 : x.jid = s.prevJ) (h2 : x.mid = s.prevM) : enter sec be s x = s := by
  unfold enter
  rw [if_neg (by simp [h1]), if_neg (by simp [h2])]

theorem levels_more (sec be : Int) (j : JB) (m : MB) (gid : Nat) (prop : List Char) (vs : List (List Char × Count)) :
    ∀ (s : St) (pre : List GReq) (rc : Option (List Char)), s.prevJ = j.jid → s.prevM = m.mid → s.prevG = gid → s.jrg = pre ++ [(s.jr, rc)] →
      (vs.map (fun v => (⟨j.jid, j.props, m.mid, m.wall, gid, prop, v⟩ : Row))).foldl (step sec be) s =
        { s with jr := s.jr ++ vs, jrg := pre ++ [(s.jr ++ vs, rc)] } := by
  induction vs with
  | nil =>
    intro s pre rc _ _ _ h
    simp only [List.map_nil, List.foldl_nil, List.append_nil]
    rw [← h]
  | cons v vs ih =>
    intro s pre rc h1 h2 h3 h4
    rw [List.map_cons, List.foldl_cons]
    have : step sec be s ⟨j.jid, j.props, m.mid, m.wall, gid, prop, v⟩ = { s with jr := s.jr ++ [v], jrg := pre ++ [(s.jr ++ [v], rc)] } := by
      unfold step
      rw [enter_same _ _ _ _ h1.symm h2.symm]
      unfold level
      rw [if_neg (by simp [h3])]
      dsimp only
      rw [h4, mapLast_append]
    rw [this, ih { s with jr := s.jr ++ [v], jrg := pre ++ [(s.jr ++ [v], rc)] } pre rc h1 h2 h3 rfl]
    simp [List.append_assoc]

theorem fold_group (sec be : Int) (j : JB) (m : MB) (g : GB) (hg : g.levels ≠ []) (s : St) (h1 : s.prevJ = j.jid) (h2 : s.prevM = m.mid)
    (h3 : s.prevG ≠ g.gid) :
    (rowsG j m g).foldl (step sec be) s = { s with prevG := g.gid, jr := g.levels, rc := constraints j.props g.prop, jrg := s.jrg ++ [reqG j g] } := by
  obtain ⟨gid, prop, levels⟩ := g
  cases levels with
  | nil => exact absurd rfl hg
  | cons v vs =>
    unfold rowsG
    dsimp only
    rw [List.map_cons, List.foldl_cons]
    have : step sec be s ⟨j.jid, j.props, m.mid, m.wall, gid, prop, v⟩ =
        { s with prevG := gid, jr := [v], rc := constraints j.props prop, jrg := s.jrg ++ [([v], constraints j.props prop)] } := by
      unfold step
      rw [enter_same _ _ _ _ h1.symm h2.symm]
      unfold level
      rw [if_pos (by simpa using fun h => h3 h.symm)]
    rw [this, levels_more sec be j m gid prop vs { s with prevG := gid, jr := [v], rc := constraints j.props prop, jrg := s.jrg ++ [([v], constraints j.props prop)] } s.jrg (constraints j.props prop) h1 h2 rfl rfl]
    rfl

/-! ## One moldable -/

/-- The state after some groups of a moldable. -/
structure InMold (s0 s : St) (gs : List GReq) (gids : List Nat) : Prop where
  first : s.first = s0.first
  prevJ : s.prevJ = s0.prevJ
  prevM : s.prevM = s0.prevM
  wall : s.wall = s0.wall
  mlds : s.mlds = s0.mlds
  out : s.out = s0.out
  jrg : s.jrg = s0.jrg ++ gs
  last : gs ≠ [] → gs.getLast? = some (s.jr, s.rc)
  prevG : s.prevG = s0.prevG ∨ s.prevG ∈ gids
  mem : gs ≠ [] → s.prevG ∈ gids

theorem fold_groups (sec be : Int) (j : JB) (m : MB) (gs : List GB) (hg : ∀ g ∈ gs, g.levels ≠ []) :
    ∀ (s : St), s.prevJ = j.jid → s.prevM = m.mid → s.prevG ∉ gs.map (·.gid) → (gs.map (·.gid)).Nodup →
      InMold s ((gs.flatMap (rowsG j m)).foldl (step sec be) s) (gs.map (reqG j)) (gs.map (·.gid)) := by
  induction gs with
  | nil =>
    intro s _ _ _ _
    exact ⟨rfl, rfl, rfl, rfl, rfl, rfl, by simp, by simp, Or.inl rfl, by simp⟩
  | cons g gs ih =>
    intro s h1 h2 h3 h4
    rw [List.map_cons, List.nodup_cons] at h4
    rw [List.flatMap_cons, List.foldl_append, fold_group sec be j m g (hg g (by simp)) s h1 h2 (by
      intro h; exact h3 (by rw [h]; simp))]
    have := ih (fun x hx => hg x (List.mem_cons_of_mem _ hx)) { s with prevG := g.gid, jr := g.levels, rc := constraints j.props g.prop, jrg := s.jrg ++ [reqG j g] }
      h1 h2 h4.1 h4.2
    refine ⟨this.first, this.prevJ, this.prevM, this.wall, this.mlds, this.out, ?_, ?_, ?_, ?_⟩
    · rw [this.jrg]; simp
    · intro _
      cases gs with
      | nil => rfl
      | cons g' gs =>
        have := this.last (by simp)
        rw [List.map_cons, List.map_cons, List.getLast?_cons_cons, ← List.map_cons]
        exact this
    · right
      rcases this.prevG with h | h
      · rw [h]; simp
      · rw [List.map_cons]; exact List.mem_cons_of_mem _ h
    · intro _
      rcases this.prevG with h | h
      · rw [h]; simp
      · rw [List.map_cons]; exact List.mem_cons_of_mem _ h

theorem rowsG_cons (j : JB) (m : MB) (g : GB) (hg : g.levels ≠ []) : ∃ x l, rowsG j m g = x :: l ∧ x.jid = j.jid ∧ x.mid = m.mid ∧ x.wall = m.wall := by
  cases h : g.levels with
  | nil => exact absurd h hg
  | cons v vs =>
    unfold rowsG
    rw [h]
    exact ⟨_, _, rfl, rfl, rfl, rfl⟩

theorem rowsM_cons (j : JB) (m : MB) (h : FullM m) : ∃ x l, rowsM j m = x :: l ∧ x.jid = j.jid ∧ x.mid = m.mid ∧ x.wall = m.wall := by
  cases hg : m.groups with
  | nil => exact absurd hg h.1
  | cons g gs =>
    obtain ⟨x, l, h1, h2⟩ := rowsG_cons j m g (h.2 g (by rw [hg]; simp))
    refine ⟨x, l ++ gs.flatMap (rowsG j m), ?_, h2⟩
    unfold rowsM
    rw [hg, List.flatMap_cons, h1]; rfl

/-- The rows of a block do as if the block had been entered before. -/
theorem fold_enter (sec be : Int) (x : Row) (l : List Row) (s s' : St) (h : enter sec be s x = s') (hj : s'.prevJ = x.jid) (hm : s'.prevM = x.mid) :
    (x :: l).foldl (step sec be) s = (x :: l).foldl (step sec be) s' := by
  rw [List.foldl_cons, List.foldl_cons]
  have : step sec be s x = step sec be s' x := by
    unfold step
    rw [h, enter_same sec be s' x hj.symm hm.symm]
  rw [this]

/-- The state at the end of some moldables of a job: all but the last one are recorded, the last one is current. -/
structure InJob (sec be : Int) (s0 s : St) (j : JB) (ms : List MB) : Prop where
  first : s.first = s0.first
  prevJ : s.prevJ = j.jid
  out : s.out = s0.out
  all : s.mlds ++ [(s.prevM, s.wall, s.jrg)] = s0.mlds ++ [(s0.prevM, s0.wall, s0.jrg)] ++ ms.map (reqM sec be j)
  ne : s.jrg ≠ []
  last : s.jrg.getLast? = some (s.jr, s.rc)
  prevM : s.prevM = s0.prevM ∨ s.prevM ∈ ms.map (·.mid)
  prevG : s.prevG = s0.prevG ∨ s.prevG ∈ ms.flatMap gidsM

theorem fold_molds (sec be : Int) (j : JB) (ms : List MB) (hf : ∀ m ∈ ms, FullM m) :
    ∀ (s : St), s.prevJ = j.jid → s.jrg ≠ [] → s.jrg.getLast? = some (s.jr, s.rc) → s.prevM ∉ ms.map (·.mid) → (ms.map (·.mid)).Nodup →
      s.prevG ∉ ms.flatMap gidsM → (ms.flatMap gidsM).Nodup →
      InJob sec be s ((ms.flatMap (rowsM j)).foldl (step sec be) s) j ms := by
  induction ms with
  | nil =>
    intro s h1 h2 h3 _ _ _ _
    exact ⟨rfl, h1, rfl, by simp, h2, h3, Or.inl rfl, Or.inl rfl⟩
  | cons m ms ih =>
    intro s h1 h2 h3 h4 h5 h6 h7
    have hm := hf m (by simp)
    rw [List.map_cons, List.nodup_cons] at h5
    rw [List.flatMap_cons, List.nodup_append] at h7
    rw [List.flatMap_cons, List.foldl_append]
    have hs1 : (rowsM j m).foldl (step sec be) s = (rowsM j m).foldl (step sec be)
        { s with mlds := s.mlds ++ [(s.prevM, s.wall, s.jrg)], prevM := m.mid, jrg := [], jr := [], wall := if be ≠ 0 then be else m.wall + sec } := by
      obtain ⟨x, l, e, ej, em, ew⟩ := rowsM_cons j m hm
      rw [e]
      refine fold_enter sec be x l _ _ ?_ (by rw [ej]; exact h1) em.symm
      unfold enter
      rw [if_neg (by simp [ej, h1]), if_pos (by
        rw [em]
        intro h
        exact h4 (by rw [← h]; simp)), if_pos h2, em]
      unfold wallOf
      rw [ew]
    rw [hs1]
    have hin := fold_groups sec be j m m.groups hm.2
      { s with mlds := s.mlds ++ [(s.prevM, s.wall, s.jrg)], prevM := m.mid, jrg := [], jr := [], wall := if be ≠ 0 then be else m.wall + sec } h1 rfl
      (fun h => h6 (by rw [List.flatMap_cons]; exact List.mem_append_left _ h)) h7.1
    rw [show m.groups.flatMap (rowsG j m) = rowsM j m from rfl] at hin
    generalize (rowsM j m).foldl (step sec be) { s with mlds := s.mlds ++ [(s.prevM, s.wall, s.jrg)], prevM := m.mid, jrg := [], jr := [], wall := if be ≠ 0 then be else m.wall + sec } = s2 at hin ⊢
    have hne : m.groups.map (reqG j) ≠ [] := by simpa using hm.1
    have hjrg : s2.jrg = m.groups.map (reqG j) := by rw [hin.jrg]; simp
    have hin2 := ih (fun x hx => hf x (List.mem_cons_of_mem _ hx)) s2 (by rw [hin.prevJ]; exact h1) (by rw [hjrg]; exact hne)
      (by rw [hjrg]; exact hin.last hne) (by rw [hin.prevM]; exact h5.1) h5.2 (by
        intro h
        exact h7.2.2 _ (hin.mem hne) _ h rfl) h7.2.1
    refine ⟨by rw [hin2.first, hin.first], hin2.prevJ, by rw [hin2.out, hin.out], ?_, hin2.ne, hin2.last, ?_, ?_⟩
    · rw [hin2.all, hin.mlds, hin.prevM, hin.wall, hjrg, List.map_cons]
      simp only [List.append_assoc, List.singleton_append]
      rfl
    · right
      rw [List.map_cons]
      rcases hin2.prevM with h | h
      · rw [h, hin.prevM]; simp
      · exact List.mem_cons_of_mem _ h
    · right
      rw [List.flatMap_cons]
      rcases hin2.prevG with h | h
      · rw [h]; exact List.mem_append_left _ (hin.mem hne)
      · exact List.mem_append_right _ h

/-! ## Jobs -/

/-- The state at the end of a job. -/
structure AtJob (sec be : Int) (s : St) (j : JB) (out : List (Nat × List MReq)) : Prop where
  first : s.first = false
  prevJ : s.prevJ = j.jid
  out : s.out = out
  all : s.mlds ++ [(s.prevM, s.wall, s.jrg)] = reqJ sec be j
  ne : s.jrg ≠ []
  last : s.jrg.getLast? = some (s.jr, s.rc)
  prevG : s.prevG ∈ gidsJ j

/-- A job entered with nothing pending. -/
theorem fold_job (sec be : Int) (j : JB) (hf : FullJ j) (hm : (j.molds.map (·.mid)).Nodup) (hg : (gidsJ j).Nodup) (s : St) (hs : s.prevG ∉ gidsJ j)
    (s' : St) (hs' : ∀ x ∈ (rowsJ j).head?, enter sec be s x = s') (h1 : s'.first = false) (h2 : s'.prevJ = j.jid) (h3 : s'.mlds = []) (h4 : s'.jrg = [])
    (h5 : ∀ m ∈ j.molds.head?, s'.prevM = m.mid ∧ s'.wall = if be ≠ 0 then be else m.wall + sec) (h6 : s'.prevG = s.prevG) :
    AtJob sec be ((rowsJ j).foldl (step sec be) s) j s'.out := by
  obtain ⟨jid, props, molds⟩ := j
  cases molds with
  | nil => exact absurd rfl hf.1
  | cons m ms =>
    have hmf := hf.2 m (by simp)
    obtain ⟨hm1, hm2⟩ := h5 m (by simp)
    have hs1 : (rowsJ ⟨jid, props, m :: ms⟩).foldl (step sec be) s = (rowsJ ⟨jid, props, m :: ms⟩).foldl (step sec be) s' := by
      obtain ⟨x, l, e, ej, em, ew⟩ := rowsM_cons ⟨jid, props, m :: ms⟩ m hmf
      have e2 : rowsJ ⟨jid, props, m :: ms⟩ = x :: (l ++ ms.flatMap (rowsM ⟨jid, props, m :: ms⟩)) := by
        unfold rowsJ
        rw [List.flatMap_cons, e]; rfl
      rw [e2] at hs' ⊢
      exact fold_enter sec be x _ s s' (hs' x (by simp)) (by rw [h2, ej]) (by rw [hm1, em])
    rw [hs1]
    have hsplit : rowsJ ⟨jid, props, m :: ms⟩ = rowsM ⟨jid, props, m :: ms⟩ m ++ ms.flatMap (rowsM ⟨jid, props, m :: ms⟩) := by
      unfold rowsJ
      rw [List.flatMap_cons]
    rw [hsplit, List.foldl_append]
    have hg' : (gidsM m ++ ms.flatMap gidsM).Nodup := hg
    rw [List.nodup_append] at hg'
    have hs2 : s.prevG ∉ gidsM m ++ ms.flatMap gidsM := hs
    have hin := fold_groups sec be ⟨jid, props, m :: ms⟩ m m.groups hmf.2 s' h2 hm1 (fun h => hs2 (List.mem_append_left _ (h6 ▸ h))) hg'.1
    rw [show m.groups.flatMap (rowsG ⟨jid, props, m :: ms⟩ m) = rowsM ⟨jid, props, m :: ms⟩ m from rfl] at hin
    generalize (rowsM ⟨jid, props, m :: ms⟩ m).foldl (step sec be) s' = s2 at hin ⊢
    have hne : m.groups.map (reqG ⟨jid, props, m :: ms⟩) ≠ [] := by simpa using hmf.1
    have hjrg : s2.jrg = m.groups.map (reqG ⟨jid, props, m :: ms⟩) := by rw [hin.jrg, h4]; simp
    have hmn : (m.mid :: ms.map (·.mid)).Nodup := hm
    rw [List.nodup_cons] at hmn
    have hin2 := fold_molds sec be ⟨jid, props, m :: ms⟩ ms (fun x hx => hf.2 x (List.mem_cons_of_mem _ hx)) s2 (by rw [hin.prevJ]; exact h2)
      (by rw [hjrg]; exact hne) (by rw [hjrg]; exact hin.last hne) (by rw [hin.prevM, hm1]; exact hmn.1) hmn.2 (by
        intro h
        exact hg'.2.2 _ (hin.mem hne) _ h rfl) hg'.2.1
    refine ⟨by rw [hin2.first, hin.first, h1], hin2.prevJ, by rw [hin2.out, hin.out], ?_, hin2.ne, hin2.last, ?_⟩
    · rw [hin2.all, hin.mlds, h3, hin.prevM, hm1, hin.wall, hm2, hjrg]
      rfl
    · show _ ∈ gidsM m ++ ms.flatMap gidsM
      rcases hin2.prevG with h | h
      · rw [h]; exact List.mem_append_left _ (hin.mem hne)
      · exact List.mem_append_right _ h

theorem rowsJ_head (j : JB) (hf : FullJ j) (x : Row) (h : x ∈ (rowsJ j).head?) : x.jid = j.jid ∧ ∀ m ∈ j.molds.head?, x.mid = m.mid ∧ x.wall = m.wall := by
  obtain ⟨jid, props, molds⟩ := j
  cases molds with
  | nil => exact absurd rfl hf.1
  | cons m ms =>
    obtain ⟨y, l, e, ej, em, ew⟩ := rowsM_cons ⟨jid, props, m :: ms⟩ m (hf.2 m (by simp))
    unfold rowsJ at h
    rw [List.flatMap_cons, e] at h
    have : y = x := by simpa using h
    subst this
    refine ⟨ej, ?_⟩
    intro m' hm'
    have : m = m' := by simpa using hm'
    subst this
    exact ⟨em, ew⟩

theorem dup_eq (s : St) (h : s.jrg.getLast? = some (s.jr, s.rc)) :
    s.mlds ++ [(s.prevM, s.wall, s.jrg ++ [(s.jr, s.rc)])] = dup (s.mlds ++ [(s.prevM, s.wall, s.jrg)]) := by
  unfold dup
  rw [mapLast_append]
  dsimp only
  rw [h]; rfl

/-- The requests of the jobs, as read: all but the last one have their last group twice. -/
def outOf (sec be : Int) : List JB → List (Nat × List MReq)
  | [] => []
  | [j] => [(j.jid, reqJ sec be j)]
  | j :: k :: l => (j.jid, dup (reqJ sec be j)) :: outOf sec be (k :: l)

theorem fold_jobs (sec be : Int) (l : List JB) : ∀ (j : JB) (s : St) (out : List (Nat × List MReq)), AtJob sec be s j out →
    (∀ k ∈ l, FullJ k ∧ (k.molds.map (·.mid)).Nodup) → j.jid ∉ l.map (·.jid) → (l.map (·.jid)).Nodup →
    s.prevG ∉ l.flatMap gidsJ → (l.flatMap gidsJ).Nodup →
    (let s' := (l.flatMap rowsJ).foldl (step sec be) s
     s'.out ++ [(s'.prevJ, s'.mlds ++ [(s'.prevM, s'.wall, s'.jrg)])]) = out ++ outOf sec be (j :: l) := by
  induction l with
  | nil =>
    intro j s out h _ _ _ _ _
    show s.out ++ [(s.prevJ, s.mlds ++ [(s.prevM, s.wall, s.jrg)])] = _
    rw [h.out, h.prevJ, h.all]; rfl
  | cons k l ih =>
    intro j s out h hk hj hn hg hgn
    rw [List.map_cons, List.nodup_cons] at hn
    rw [List.flatMap_cons, List.nodup_append] at hgn
    rw [List.flatMap_cons] at hg
    have hkf := hk k (by simp)
    have hjk : k.jid ≠ s.prevJ := by
      rw [h.prevJ]
      intro e
      exact hj (by rw [← e]; simp)
    obtain ⟨m, hm⟩ : ∃ m, m ∈ k.molds.head? := by
      cases e : k.molds with
      | nil => exact absurd e hkf.1.1
      | cons m ms => exact ⟨m, rfl⟩
    have hat := fold_job sec be k hkf.1 hkf.2 hgn.1 s (fun h => hg (List.mem_append_left _ h))
      { s with out := s.out ++ [(s.prevJ, s.mlds ++ [(s.prevM, s.wall, s.jrg ++ [(s.jr, s.rc)])])], mlds := [], jrg := [], jr := [], prevM := m.mid, prevJ := k.jid, wall := if be ≠ 0 then be else m.wall + sec }
      (by
        intro x hx
        obtain ⟨e1, e2⟩ := rowsJ_head k hkf.1 x hx
        obtain ⟨e3, e4⟩ := e2 m hm
        unfold enter
        rw [if_pos (by rw [e1]; exact hjk), if_neg (by simp [h.first])]
        unfold wallOf
        rw [e1, e3, e4]) h.first rfl rfl rfl (by
        intro m' hm'
        have hm1 : k.molds.head? = some m := hm
        have hm2 : k.molds.head? = some m' := hm'
        rw [hm1] at hm2
        cases hm2
        exact ⟨rfl, rfl⟩) rfl
    show (let s' := ((k :: l).flatMap rowsJ).foldl (step sec be) s; s'.out ++ [(s'.prevJ, s'.mlds ++ [(s'.prevM, s'.wall, s'.jrg)])]) = _
    rw [List.flatMap_cons, List.foldl_append]
    have := ih k _ _ hat (fun x hx => hk x (List.mem_cons_of_mem _ hx)) hn.1 hn.2 (by
      intro hh
      exact hgn.2.2 _ hat.prevG _ hh rfl) hgn.2.1
    rw [this]
    dsimp only
    rw [h.out, h.prevJ, dup_eq s h.last, h.all]
    simp [outOf]

/-- Rows in blocks: distinct jobs, moldables and groups, numbered from 1. -/
structure Blocks (l : List JB) : Prop where
  full : ∀ j ∈ l, FullJ j
  jids : (l.map (·.jid)).Nodup
  jpos : 0 ∉ l.map (·.jid)
  mids : ∀ j ∈ l, (j.molds.map (·.mid)).Nodup
  gids : (l.flatMap gidsJ).Nodup
  gpos : 0 ∉ l.flatMap gidsJ

/-- The requests read by the loop, exactly. -/
theorem readRows_blocks (sec be : Int) (l : List JB) (hne : l ≠ []) (h : Blocks l) :
    readRows sec be (rowsOf l) = some (outOf sec be l) := by
  cases l with
  | nil => exact absurd rfl hne
  | cons j l =>
    have hjf := h.full j (by simp)
    have hn := h.jids
    rw [List.map_cons, List.nodup_cons] at hn
    have hgn := h.gids
    rw [List.flatMap_cons, List.nodup_append] at hgn
    have hg0 := h.gpos
    rw [List.flatMap_cons] at hg0
    obtain ⟨m, hm⟩ : ∃ m, m ∈ j.molds.head? := by
      cases e : j.molds with
      | nil => exact absurd e hjf.1
      | cons m ms => exact ⟨m, rfl⟩
    have hat := fold_job sec be j hjf (h.mids j (by simp)) hgn.1 St.init (fun h => hg0 (List.mem_append_left _ h))
      { St.init with first := false, prevM := m.mid, prevJ := j.jid, wall := if be ≠ 0 then be else m.wall + sec } (by
        intro x hx
        obtain ⟨e1, e2⟩ := rowsJ_head j hjf x hx
        obtain ⟨e3, e4⟩ := e2 m hm
        unfold enter
        rw [if_pos (by
          rw [e1]
          intro e
          exact h.jpos (by
            rw [List.map_cons]
            have : j.jid = 0 := e
            rw [this]; simp)), if_pos (show St.init.first = true from rfl)]
        unfold wallOf
        rw [e1, e3, e4]) rfl rfl rfl rfl (by
        intro m' hm'
        have hm1 : j.molds.head? = some m := hm
        have hm2 : j.molds.head? = some m' := hm'
        rw [hm1] at hm2
        cases hm2
        exact ⟨rfl, rfl⟩) rfl
    have := fold_jobs sec be l j _ _ hat (fun x hx => ⟨h.full x (List.mem_cons_of_mem _ hx), h.mids x (List.mem_cons_of_mem _ hx)⟩) hn.1 hn.2 (by
      intro hh
      exact hgn.2.2 _ hat.prevG _ hh rfl) hgn.2.1
    unfold readRows
    have hrows : rowsOf (j :: l) ≠ [] := by
      cases e : j.molds with
      | nil => exact absurd e hjf.1
      | cons m ms =>
        obtain ⟨x, l', e', _⟩ := rowsM_cons j m (hjf.2 m (by rw [e]; simp))
        unfold rowsOf rowsJ
        rw [List.flatMap_cons, e, List.flatMap_cons, e']
        simp
    rw [if_neg hrows]
    unfold rowsOf
    rw [List.flatMap_cons, List.foldl_append]
    dsimp only at this ⊢
    rw [this]; rfl

end Oar.Submission
