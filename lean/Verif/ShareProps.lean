import Verif.SchedProps

/-!
# Property theorems about timesharing and placeholders (C11), and about adding back (C47)
-/

namespace Oar.Kao
open Spec Oar.Hierarchy

/-- Specification: in this slot the job may use resource `x`, because it is free, or shared with jobs compatible with it
(timesharing, by user and name, `*` standing for any), or reserved by the placeholder the job is allowed in. -/
def MayUse (job : Job) (s : Slot) (x : Nat) : Prop :=
  x ∈ s.itvs ∨
  (job.ts = true ∧ ∃ u d n X, (u = "*" ∨ u = job.user) ∧ s.ts.lookup u = some d ∧ (n = "*" ∨ n = job.name) ∧
    d.lookup n = some X ∧ x ∈ X) ∨
  (job.ph = 2 ∧ ∃ X, s.ph.lookup job.phName = some X ∧ x ∈ X)

/-- The part of `shareable` about timesharing. -/
theorem shareable_cases (job : Job) (s : Slot) : ∃ T : ProcSet,
    (∀ x ∈ T, x ∈ s.itvs ∨ (job.ts = true ∧ ∃ u d n X, (u = "*" ∨ u = job.user) ∧ s.ts.lookup u = some d ∧
      (n = "*" ∨ n = job.name) ∧ d.lookup n = some X ∧ x ∈ X)) ∧ s.itvs ⊆ T ∧
    shareable job s = if job.ph = 2 then (match dictGet s.ph job.phName with
      | some x => T ∪ x
      | none => T) else T := by
  refine ⟨_, ?_, ?_, rfl⟩
  · intro x hx
    split at hx
    · rename_i hts
      have fin : ∀ u d n X, (u = "*" ∨ u = job.user) → dictGet s.ts u = some d → (n = "*" ∨ n = job.name) →
          dictGet d n = some X → x ∈ s.itvs ∪ X → x ∈ s.itvs ∨ (job.ts = true ∧ ∃ u d n X, (u = "*" ∨ u = job.user) ∧
            s.ts.lookup u = some d ∧ (n = "*" ∨ n = job.name) ∧ d.lookup n = some X ∧ x ∈ X) := by
        intro u d n X h1 h2 h3 h4 h5
        rcases Finset.mem_union.1 h5 with h | h
        · exact Or.inl h
        · exact Or.inr ⟨hts, u, d, n, X, h1, h2, h3, h4, h⟩
      split at hx
      · rename_i d hd
        split at hx
        · rename_i X hX; exact fin _ _ _ _ (Or.inl rfl) hd (Or.inl rfl) hX hx
        · split at hx
          · rename_i X hX; exact fin _ _ _ _ (Or.inl rfl) hd (Or.inr rfl) hX hx
          · exact Or.inl hx
      · split at hx
        · rename_i d hd
          split at hx
          · rename_i X hX; exact fin _ _ _ _ (Or.inr rfl) hd (Or.inl rfl) hX hx
          · split at hx
            · rename_i X hX; exact fin _ _ _ _ (Or.inr rfl) hd (Or.inr rfl) hX hx
            · exact Or.inl hx
        · exact Or.inl hx
    · exact Or.inl hx
  · split
    · split
      · split
        · exact Finset.subset_union_left
        · split
          · exact Finset.subset_union_left
          · exact Finset.Subset.refl _
      · split
        · split
          · exact Finset.subset_union_left
          · split
            · exact Finset.subset_union_left
            · exact Finset.Subset.refl _
        · exact Finset.Subset.refl _
    · exact Finset.Subset.refl _

/-- **C11, one slot.** What the code deems shareable is indeed usable by the job. -/
theorem shareable_mayUse (job : Job) (s : Slot) (x : Nat) (hx : x ∈ shareable job s) : MayUse job s x := by
  obtain ⟨T, h1, _, h3⟩ := shareable_cases job s
  rw [h3] at hx
  have hT : ∀ x ∈ T, MayUse job s x := fun x hx => (h1 x hx).elim Or.inl (fun h => Or.inr (Or.inl h))
  split at hx
  · rename_i hph
    split at hx
    · rename_i X hX
      rcases Finset.mem_union.1 hx with h | h
      · exact hT x h
      · exact Or.inr (Or.inr ⟨hph, X, hX, h⟩)
    · exact hT x hx
  · exact hT x hx

/-- **C11, one slot.** A free resource is always usable. -/
theorem free_shareable (job : Job) (s : Slot) : s.itvs ⊆ shareable job s := by
  obtain ⟨T, _, h2, h3⟩ := shareable_cases job s
  rw [h3]
  split
  · split
    · exact h2.trans Finset.subset_union_left
    · exact h2
  · exact h2

theorem intersecTsLoop_seg {ss : SlotSet} {c : List Slot} (h : Partition ss c) (job : Job) :
    ∀ (t l i r : List Slot) (a z : Slot) (fuel : Nat) (acc : ProcSet),
    c = l ++ (a :: t) ++ r → a :: t = i ++ [z] → t.length < fuel →
    ss.intersecTsLoop job z.id fuel a acc = some ((a :: t).foldl (fun acc s => accStep acc (shareable job s)) acc)
  | t, l, i, r, a, z, 0, acc, e, ez, hf => by omega
  | [], l, i, r, a, z, fuel + 1, acc, e, ez, hf => by
    have : a = z := by
      cases i with
      | nil => simpa using ez
      | cons x i => simp at ez
    subst this
    simp [SlotSet.intersecTsLoop]
  | b :: t, l, i, r, a, z, fuel + 1, acc, e, ez, hf => by
    obtain ⟨i', rfl, ez'⟩ : ∃ i', i = a :: i' ∧ b :: t = i' ++ [z] := by
      cases i with
      | nil => simp at ez
      | cons x i =>
        simp only [List.cons_append, List.cons.injEq] at ez
        exact ⟨i, by rw [ez.1], ez.2⟩
    have hne : a.id ≠ z.id := by
      intro he
      have hz : z ∈ c := by rw [e, ez]; simp
      have ha : a ∈ c := by rw [e]; simp
      have := id_inj h ha hz he
      subst this
      have hnd := nodup_chain h
      rw [e, ez] at hnd
      simp only [List.nodup_append] at hnd
      simp at hnd
    have e' : c = (l ++ [a]) ++ (b :: t) ++ r := by rw [e]; simp
    have hg : ss.get? a.next = some b :=
      (Spec.Partition.next_cons (l := l) (r := t ++ r) (s := a) (t := b) (by rw [e] at h; simpa using h)).2.2
    have ih := intersecTsLoop_seg h job t (l ++ [a]) i' r b z fuel (accStep acc (shareable job a)) e' ez'
      (by simp at hf; omega)
    unfold SlotSet.intersecTsLoop
    dsimp only
    rw [if_neg hne, hg]
    dsimp only
    rw [ih]
    rfl

/-- When some resource is usable throughout, the re-seeding accumulation is an intersection. -/
theorem accFold {f : Slot → ProcSet} {y : Nat} : ∀ (L : List Slot) (acc : ProcSet), (∀ s ∈ L, y ∈ f s) → y ∈ acc →
    ∀ x, x ∈ L.foldl (fun acc s => accStep acc (f s)) acc ↔ x ∈ acc ∧ ∀ s ∈ L, x ∈ f s
  | [], acc, _, _, x => by simp
  | s :: L, acc, hy, ha, x => by
    have hne : acc ≠ ∅ := fun e => by rw [e] at ha; simp at ha
    have e : accStep acc (f s) = acc ∩ f s := by unfold accStep; rw [if_neg hne]
    rw [List.foldl_cons, e, accFold L _ (fun s' hs' => hy s' (List.mem_cons_of_mem _ hs'))
      (Finset.mem_inter.2 ⟨ha, hy s (by simp)⟩) x]
    simp only [Finset.mem_inter, List.mem_cons, forall_eq_or_imp, and_assoc]

/-- The slots between two slots of the timeline. -/
theorem segment {ss : SlotSet} {c : List Slot} (h : Partition ss c) {a z : Slot} (ha : a ∈ ss.slots) (hz : z ∈ ss.slots)
    (hle : a.b ≤ z.b) : ∃ l t i r, c = l ++ (a :: t) ++ r ∧ a :: t = i ++ [z] ∧
      ∀ s ∈ ss.slots, (a.b ≤ s.b ∧ s.e ≤ z.e) ↔ s ∈ a :: t := by
  obtain ⟨l, r0, e⟩ := List.append_of_mem (h.mem_iff.1 ha)
  have hT := h.tiled
  rw [e, tiled_append] at hT
  obtain ⟨m, hl, hab, hae, hr⟩ := hT
  have hlb := (tiled_bounds _ _ _ hl).2
  have hrb := (tiled_bounds _ _ _ hr).2
  have hzc := h.mem_iff.1 hz
  rw [e] at hzc
  simp only [List.mem_append, List.mem_cons] at hzc
  rcases hzc with hz' | rfl | hz'
  · have := hlb z hz'; omega
  · refine ⟨l, [], [], r0, by simpa using e, rfl, ?_⟩
    intro s hs
    have hsc := h.mem_iff.1 hs
    rw [e] at hsc
    simp only [List.mem_append, List.mem_cons] at hsc
    rcases hsc with h' | rfl | h'
    · have := hlb s h'
      constructor
      · intro h2; omega
      · intro h2
        simp only [List.mem_cons, List.not_mem_nil, or_false] at h2
        subst h2; omega
    · simp
    · have := hrb s h'
      constructor
      · intro h2; omega
      · intro h2
        simp only [List.mem_cons, List.not_mem_nil, or_false] at h2
        subst h2; omega
  · obtain ⟨t', r, e2⟩ := List.append_of_mem hz'
    refine ⟨l, t' ++ [z], a :: t', r, by rw [e, e2]; simp, rfl, ?_⟩
    rw [e2, tiled_append] at hr
    obtain ⟨m2, ht, hzb, hze, hr2⟩ := hr
    have htb := (tiled_bounds _ _ _ ht).2
    have htb1 := (tiled_bounds _ _ _ ht).1
    have hr2b := (tiled_bounds _ _ _ hr2).2
    intro s hs
    have hsc := h.mem_iff.1 hs
    rw [e, e2] at hsc
    simp only [List.mem_append, List.mem_cons] at hsc
    have hnd : ∀ s1 ∈ ss.slots, ∀ s2 ∈ ss.slots, s1.b = s2.b → s1 = s2 := by
      intro s1 h1 s2 h2 hb
      have b1 := (tiled_bounds _ _ _ h.tiled).2 s1 (h.mem_iff.1 h1)
      have b2 := (tiled_bounds _ _ _ h.tiled).2 s2 (h.mem_iff.1 h2)
      exact tiled_unique c _ _ s1.b h.tiled s1 s2 (h.mem_iff.1 h1) (h.mem_iff.1 h2) le_rfl b1.2.1 (by omega) (by omega)
    have hseg : ∀ s' ∈ a :: (t' ++ [z]), a.b ≤ s'.b ∧ s'.e ≤ z.e := by
      intro s' hs'
      simp only [List.mem_cons, List.mem_append, List.not_mem_nil, or_false] at hs'
      rcases hs' with rfl | h' | rfl
      · omega
      · have := htb s' h'; omega
      · omega
    constructor
    · intro h2
      rcases hsc with h' | rfl | h' | rfl | h'
      · have := hlb s h'; omega
      · simp
      · simp [h']
      · simp
      · have := hr2b s h'; omega
    · exact hseg s

/-- **C11, partial.** The resources a sharing job may be given between two slots: if at least one resource is usable in
all the slots of the window, they are exactly the resources deemed shareable in every slot of the window, hence all are
usable (`MayUse`) in each. Missing: windows in which no resource is usable throughout. -/
theorem sharing_exact_partial (ss : SlotSet) (job : Job) (a z : Slot) (A : ProcSet) (hwf : WF ss) (ha : a ∈ ss.slots)
    (hz : z ∈ ss.slots) (hle : a.b ≤ z.b) (h : ss.intersecTs job a.id z.id = some A)
    (hcommon : ∃ y, ∀ s ∈ ss.slots, a.b ≤ s.b → s.e ≤ z.e → y ∈ shareable job s) :
    (∀ x, x ∈ A ↔ ∀ s ∈ ss.slots, a.b ≤ s.b → s.e ≤ z.e → x ∈ shareable job s) ∧
    ∀ x ∈ A, ∀ s ∈ ss.slots, a.b ≤ s.b → s.e ≤ z.e → MayUse job s x := by
  obtain ⟨c, hc⟩ := hwf
  obtain ⟨l, t, i, r, e, ez, hseg⟩ := segment hc ha hz hle
  have hlen : t.length < ss.slots.length := by rw [hc.length_eq, e]; simp; omega
  unfold SlotSet.intersecTs at h
  rw [hc.get (hc.mem_iff.1 ha)] at h
  dsimp only at h
  rw [intersecTsLoop_seg hc job t l i r a z _ ∅ e ez hlen, Option.some.injEq, List.foldl_cons] at h
  have e0 : accStep ∅ (shareable job a) = shareable job a := by unfold accStep; rw [if_pos rfl]
  rw [e0] at h
  obtain ⟨y, hy⟩ := hcommon
  have hmem : ∀ s ∈ a :: t, s ∈ ss.slots := fun s hs => hc.mem_iff.2 (by rw [e]; simp only [List.mem_append]; tauto)
  have hyt : ∀ s ∈ a :: t, y ∈ shareable job s := fun s hs => by
    have h2 := (hseg s (hmem s hs)).2 hs
    exact hy s (hmem s hs) h2.1 h2.2
  have hx : ∀ x, x ∈ A ↔ ∀ s ∈ ss.slots, a.b ≤ s.b → s.e ≤ z.e → x ∈ shareable job s := by
    intro x
    rw [← h, accFold (f := shareable job) t _ (fun s hs => hyt s (by simp [hs])) (hyt a (by simp)) x]
    constructor
    · rintro ⟨h1, h2⟩ s hs b1 b2
      rcases List.mem_cons.1 ((hseg s hs).1 ⟨b1, b2⟩) with rfl | h3
      · exact h1
      · exact h2 s h3
    · intro h1
      have h2 : ∀ s ∈ a :: t, x ∈ shareable job s := fun s hs =>
        h1 s (hmem s hs) ((hseg s (hmem s hs)).2 hs).1 ((hseg s (hmem s hs)).2 hs).2
      exact ⟨h2 a (by simp), fun s hs => h2 s (by simp [hs])⟩
  exact ⟨hx, fun x hxA s hs b1 b2 => shareable_mayUse job s x ((hx x).1 hxA s hs b1 b2)⟩

/-- C11. What the search gives to a sharing job is taken from the resources computed for its window. -/
theorem sharing_search (ss ss' : SlotSet) (job : Job) (m : Mld) (hy : Hy) (minStart : Int) (R : ProcSet) (l r : Nat)
    (h : findNoQuotas ss job m hy minStart = some (ss', some (R, l, r))) :
    ∃ A, available ss job l r = some A ∧ R ⊆ A ∧ R ≠ ∅ := by
  have key : ∀ cs, searchLoop ss job m.groups hy cs = some (some (R, l, r)) →
      ∃ A, available ss job l r = some A ∧ R ⊆ A ∧ R ≠ ∅ := by
    intro cs
    induction cs with
    | nil => intro h; simp [searchLoop] at h
    | cons p cs ih =>
      obtain ⟨b, e⟩ := p
      intro h
      unfold searchLoop at h
      cases hav : available ss job b.id e.id with
      | none => rw [hav] at h; simp at h
      | some av =>
        rw [hav] at h
        dsimp only at h
        cases hfj : findJob av m.groups hy with
        | none => rw [hfj] at h; simp at h
        | some r' =>
          rw [hfj] at h
          dsimp only at h
          by_cases hcard : r'.card ≠ 0
          · rw [if_pos hcard] at h
            simp only [Option.some.injEq, Prod.mk.injEq] at h
            obtain ⟨rfl, rfl, rfl⟩ := h
            exact ⟨av, hav, findJob_subset av hy m.groups r' hfj, fun e => by rw [e] at hcard; simp at hcard⟩
          · rw [if_neg hcard] at h
            exact ih h
  unfold findNoQuotas at h
  split at h
  · simp at h
  · split at h
    · simp at h
    · split at h
      · simp at h
      · simp at h
      · rename_i hs
        split at h
        · split at h
          · simp at h
          · simp only [Option.some.injEq, Prod.mk.injEq] at h
            obtain ⟨_, rfl, rfl, rfl⟩ := h
            exact key _ hs
        · simp only [Option.some.injEq, Prod.mk.injEq] at h
          obtain ⟨_, rfl, rfl, rfl⟩ := h
          exact key _ hs

/-- A timesharing job of user "alice", for one node during 30 s. -/
def tsjob : Job := { wjob 5 1 30 with ts := true, tsUser := "alice", tsName := "*", user := "alice" }

/-- An exclusive job that holds the whole platform during `[10, 20)`. -/
def jobAll : Job := { id := 1, startTime := 10, walltime := some 10, resSet := some {1, 2, 3, 4} }

/-- **C11, violated.** The timesharing job is started at date 0 for 30 seconds on node 1, although an exclusive job holds
all the nodes during `[10, 20)`: in this slot the timesharing job may use nothing. -/
theorem sharing_violated : ((ss0.splitJobs ctx0 [jobAll] true).bind (fun ss => assign ctx0 ss tsjob hy4 (-1))).map
      (fun x => (x.2.2.startTime, x.2.2.walltime, x.2.2.resSet)) = some (0, some 30, some {1}) ∧
    ∃ ss, ss0.splitJobs ctx0 [jobAll] true = some ss ∧ ∃ s ∈ ss.slots, s.b = 10 ∧ s.e = 19 ∧ ∀ x, ¬ MayUse tsjob s x := by
  refine ⟨by decide, ?_⟩
  have : ∃ ss, ss0.splitJobs ctx0 [jobAll] true = some ss ∧
      ∃ s ∈ ss.slots, s.b = 10 ∧ s.e = 19 ∧ s.itvs = ∅ ∧ s.ts = [] ∧ s.ph = [] := by
    cases h : ss0.splitJobs ctx0 [jobAll] true with
    | none => exact absurd h (by decide)
    | some ss =>
      refine ⟨ss, rfl, ?_⟩
      have h2 : (ss0.splitJobs ctx0 [jobAll] true).map (fun ss => ss.slots.any (fun s => decide (s.b = 10 ∧ s.e = 19 ∧
        s.itvs = ∅ ∧ s.ts = [] ∧ s.ph = []))) = some true := by decide
      rw [h] at h2
      simp only [Option.map_some, Option.some.injEq, List.any_eq_true, decide_eq_true_eq] at h2
      exact h2
  obtain ⟨ss, h1, s, hs, h2, h3, h4, h5, h6⟩ := this
  refine ⟨ss, h1, s, hs, h2, h3, ?_⟩
  rintro x (h | ⟨_, u, d, n, X, _, h, _⟩ | ⟨_, X, h, _⟩)
  · rw [h4] at h; simp at h
  · rw [h5] at h; simp at h
  · rw [h6] at h; simp at h

-- the hypotheses of the partial theorem: alice's second job shares the nodes of the first
def tsA : Job := { id := 1, startTime := 10, walltime := some 10, resSet := some {1, 2, 3, 4}, ts := true,
                   tsUser := "alice", tsName := "*" }
example : ((ss0.splitJobs ctx0 [tsA] true).bind (fun ss => ss.intersecTs tsjob 2 3)) = some {1, 2, 3, 4} ∧
    (ss0.splitJobs ctx0 [tsA] true).map (fun ss => ss.slots.all (fun s => decide (1 ∈ shareable tsjob s))) =
      some true := by decide

end Oar.Kao
