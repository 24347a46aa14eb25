import Verif.BasicSched
import Verif.SchedProps

/-!
# C75: the basic scheduler
-/

namespace Oar.Basic

open Oar.Kao Oar.Kao.Spec Oar.Hierarchy

/-! ## Specification -/

/-- Some group of the request could be satisfied by the resources free during the window `[t, t + w)`. -/
def SomeFits (ss : SlotSet) (hy : Hy) (groups : List Group) (w t : Int) : Prop :=
  ∃ A : ProcSet, (∀ x, x ∈ A ↔ FreeDuring ss t w x) ∧ ∃ g ∈ groups, SatGroup hy A g

/-! ## The search -/

theorem findJobBasic_subset (A : ProcSet) (hy : Hy) : ∀ (gs : List Group) (r : ProcSet), findJobBasic A hy gs = some r → r ⊆ A
  | [], r, h => by rw [← Option.some.inj h]; exact Finset.empty_subset _
  | g :: gs, r, h => by
    rw [findJobBasic] at h
    cases hg : findGroup A hy g with
    | none => rw [hg] at h; exact absurd h (by simp)
    | some rg =>
      cases hb : findJobBasic A hy gs with
      | none => rw [hg, hb] at h; exact absurd h (by simp)
      | some rs =>
        rw [hg, hb] at h
        rw [← Option.some.inj h]
        exact Finset.union_subset ((findGroup_subset _ _ _ _ hg).trans Finset.inter_subset_right) (findJobBasic_subset A hy gs rs hb)

theorem findJobBasic_sat (A : ProcSet) (hy : Hy) : ∀ (gs : List Group), (∀ g ∈ gs, GroupOk hy g) →
    ∃ r, findJobBasic A hy gs = some r ∧ (r ≠ ∅ ↔ ∃ g ∈ gs, SatGroup hy A g)
  | [], _ => ⟨∅, rfl, by simp⟩
  | g :: gs, hok => by
    obtain ⟨rs, hs, hiff⟩ := findJobBasic_sat A hy gs (fun x hx => hok x (List.mem_cons_of_mem _ hx))
    have hg := hok g List.mem_cons_self
    obtain ⟨rg, hr⟩ := findGroup_isSome A hy g hg
    refine ⟨rg ∪ rs, by rw [findJobBasic, hr, hs], ?_⟩
    have h1 : rg ≠ ∅ ↔ SatGroup hy A g := by
      rw [← findGroup_sat A hy g hg]
      exact ⟨fun h => ⟨rg, hr, h⟩, fun ⟨r, h, hne⟩ => by rw [hr] at h; rw [Option.some.inj h]; exact hne⟩
    constructor
    · intro h
      by_cases hz : rg = ∅
      · have : rs ≠ ∅ := by
          intro h2; exact h (by rw [hz, h2]; rfl)
        obtain ⟨x, hx, hs⟩ := hiff.1 this
        exact ⟨x, List.mem_cons_of_mem _ hx, hs⟩
      · exact ⟨g, List.mem_cons_self, h1.1 hz⟩
    · rintro ⟨x, hx, hs⟩ he
      have he1 : rg ⊆ ∅ := he ▸ Finset.subset_union_left
      have he2 : rs ⊆ ∅ := he ▸ Finset.subset_union_right
      rcases List.mem_cons.1 hx with rfl | hx
      · exact h1.2 hs (Finset.subset_empty.1 he1)
      · exact hiff.2 ⟨x, hx, hs⟩ (Finset.subset_empty.1 he2)

/-- A slot at which the search did not stop. -/
def Refused (ss : SlotSet) (hy : Hy) (groups : List Group) (w : Int) (s : Slot) : Prop :=
  ss.end_ < s.b + w - 1 ∨ ∃ A : ProcSet, (∀ x, x ∈ A ↔ FreeDuring ss s.b w x) ∧ findJobBasic A hy groups = some ∅

/-- What the search answers on the slot `s`. -/
def Seen (ss : SlotSet) (hy : Hy) (groups : List Group) (w : Int) (s : Slot) (R : ProcSet) : Prop :=
  s.b + w - 1 ≤ ss.end_ ∧ ∃ A : ProcSet, (∀ x, x ∈ A ↔ FreeDuring ss s.b w x) ∧ findJobBasic A hy groups = some R

section
variable {ss : SlotSet} {c : List Slot}

theorem searchLoop_sound (h : Partition ss c) {hy : Hy} {groups : List Group} {w : Int} (hw : 0 < w) :
    ∀ (r l : List Slot) (last res : Option (ProcSet × Slot × Slot)), c = l ++ r → searchLoop ss hy groups (cands w r) last = some res →
    (∃ P s Q R z, r = P ++ s :: Q ∧ res = some (R, s, z) ∧ R ≠ ∅ ∧ Seen ss hy groups w s R ∧ ∀ x ∈ P, Refused ss hy groups w x) ∨
    ((∀ s ∈ r, Refused ss hy groups w s) ∧ (res = last ∧ (∀ s ∈ r, ss.end_ < s.b + w - 1) ∨
      ∃ P s Q z, r = P ++ s :: Q ∧ res = some (∅, s, z) ∧ Seen ss hy groups w s ∅ ∧ ∀ x ∈ Q, ss.end_ < x.b + w - 1))
  | [], l, last, res, e, hs => by
    right
    exact ⟨by simp, Or.inl ⟨(Option.some.inj hs).symm, by simp⟩⟩
  | s :: r, l, last, res, e, hs => by
    rcases cand_spec h hw e with ⟨z, h1, h2, h3, A, h4, h5⟩ | ⟨h1, h2⟩
    · unfold cands at hs
      rw [h1] at hs
      dsimp only at hs
      rw [searchLoop, h4] at hs
      dsimp only at hs
      cases hR : findJobBasic A hy groups with
      | none => rw [hR] at hs; exact absurd hs (by simp)
      | some R =>
        rw [hR] at hs
        dsimp only at hs
        by_cases hc : R.card ≠ 0
        · rw [if_pos hc] at hs
          left
          refine ⟨[], s, r, R, z, rfl, (Option.some.inj hs).symm, ?_, ⟨h2, A, h5, hR⟩, by simp⟩
          rwa [Ne, Finset.card_eq_zero] at hc
        · rw [if_neg hc] at hs
          rw [not_not, Finset.card_eq_zero] at hc
          subst hc
          have href : Refused ss hy groups w s := Or.inr ⟨A, h5, hR⟩
          rcases searchLoop_sound h hw r (l ++ [s]) _ res (by rw [e]; simp) hs with ⟨P, x, Q, R, z', a1, a2, a3, a4, a5⟩ | ⟨a1, a2⟩
          · left
            refine ⟨s :: P, x, Q, R, z', by rw [a1]; rfl, a2, a3, a4, ?_⟩
            intro y hy
            rcases List.mem_cons.1 hy with rfl | hy
            · exact href
            · exact a5 y hy
          · right
            refine ⟨?_, Or.inr ?_⟩
            · intro y hy
              rcases List.mem_cons.1 hy with rfl | hy
              · exact href
              · exact a1 y hy
            · rcases a2 with ⟨rfl, a2⟩ | ⟨P, x, Q, z', b1, b2, b3, b4⟩
              · exact ⟨[], s, r, z, rfl, rfl, ⟨h2, A, h5, hR⟩, a2⟩
              · exact ⟨s :: P, x, Q, z', by rw [b1]; rfl, b2, b3, b4⟩
    · unfold cands at hs
      rw [h1] at hs
      dsimp only at hs
      have href : Refused ss hy groups w s := Or.inl h2
      rcases searchLoop_sound h hw r (l ++ [s]) _ res (by rw [e]; simp) hs with ⟨P, x, Q, R, z', a1, a2, a3, a4, a5⟩ | ⟨a1, a2⟩
      · left
        refine ⟨s :: P, x, Q, R, z', by rw [a1]; rfl, a2, a3, a4, ?_⟩
        intro y hy
        rcases List.mem_cons.1 hy with rfl | hy
        · exact href
        · exact a5 y hy
      · right
        refine ⟨?_, ?_⟩
        · intro y hy
          rcases List.mem_cons.1 hy with rfl | hy
          · exact href
          · exact a1 y hy
        · rcases a2 with ⟨rfl, a2⟩ | ⟨P, x, Q, z', b1, b2, b3, b4⟩
          · left
            refine ⟨rfl, ?_⟩
            intro y hy
            rcases List.mem_cons.1 hy with rfl | hy
            · exact h2
            · exact a2 y hy
          · exact Or.inr ⟨s :: P, x, Q, z', by rw [b1]; rfl, b2, b3, b4⟩

theorem someFits_bounds (hwf : WF ss) {hy : Hy} {groups : List Group} {w t : Int} (hw : 0 < w) (hok : ∀ g ∈ groups, GroupOk hy g)
    (h : SomeFits ss hy groups w t) : ss.begin_ ≤ t ∧ t + w - 1 ≤ ss.end_ := by
  obtain ⟨A, h1, g, hg, h2⟩ := h
  exact feasible_hi hwf (groups := [g]) hw (by intro x hx; rw [List.mem_singleton.1 hx]; exact hok g hg)
    ⟨A, h1, by simp, by intro x hx; rw [List.mem_singleton.1 hx]; exact h2⟩

theorem someFits_iff {hy : Hy} {groups : List Group} {w t : Int} : SomeFits ss hy groups w t ↔ ∃ g ∈ groups, Feasible ss hy [g] w t := by
  constructor
  · rintro ⟨A, h1, g, hg, h2⟩
    exact ⟨g, hg, A, h1, by simp, by intro x hx; rw [List.mem_singleton.1 hx]; exact h2⟩
  · rintro ⟨g, hg, A, h1, _, h2⟩
    exact ⟨A, h1, g, hg, h2 g (by simp)⟩

theorem refused_not_fits (hwf : WF ss) {hy : Hy} {groups : List Group} {w : Int} {s : Slot} (hw : 0 < w) (hok : ∀ g ∈ groups, GroupOk hy g)
    (h : Refused ss hy groups w s) : ¬ SomeFits ss hy groups w s.b := by
  intro hf
  rcases h with h | ⟨A, h1, h2⟩
  · have := someFits_bounds hwf hw hok hf
    omega
  · obtain ⟨B, h3, h4⟩ := hf
    have : B = A := by ext x; rw [h1, h3]
    subst this
    obtain ⟨r, h5, h6⟩ := findJobBasic_sat B hy groups hok
    rw [h2, Option.some.injEq] at h5
    subst h5
    exact absurd rfl (h6.2 h4)

/-- Every date before the slots of `Q` is refused when the slots before are. -/
theorem not_fits_before (h : Partition ss c) {P Q : List Slot} (e : c = P ++ Q) {hy : Hy} {groups : List Group} {w : Int} (hw : 0 < w)
    (hok : ∀ g ∈ groups, GroupOk hy g) (hP : ∀ s ∈ P, Refused ss hy groups w s) (t : Int) (ht : ∀ y ∈ Q, t < y.b) : ¬ SomeFits ss hy groups w t := by
  intro hf
  have hb := someFits_bounds ⟨c, h⟩ hw hok hf
  obtain ⟨l', y, r', e', h3, h4⟩ := tiled_cover _ _ _ t h.tiled (by omega) (by omega)
  have hyc : y ∈ c := by rw [e']; simp
  have hy : y ∈ P ∨ y ∈ Q := by rw [e] at hyc; exact List.mem_append.1 hyc
  rcases hy with hy | hy
  · obtain ⟨g, hg, hfe⟩ := someFits_iff.1 hf
    exact refused_not_fits ⟨c, h⟩ hw hok (hP y hy) (someFits_iff.2 ⟨g, hg, feasible_slot h hw hyc h3 h4 hfe⟩)
  · have := ht y hy
    omega

theorem slots_after {l r : List Slot} {s : Slot} (h : Partition ss c) (e : c = l ++ s :: r) : ∀ y ∈ s :: r, s.b ≤ y.b := by
  have hT := h.tiled
  rw [e, tiled_append] at hT
  obtain ⟨m, _, hT⟩ := hT
  have hb := tiled_bounds _ _ _ hT
  have : s.b = m := hT.1
  intro y hy
  have := (hb.2 y hy).1
  omega

/-- What the search of a window answers. -/
theorem find_spec (hwf : WF ss) {job : Job} {m : Mld} {hy : Hy} {R : ProcSet} {s z : Slot} (h : find ss job m hy = some (R, s, z)) :
    0 < m.walltime ∧ s ∈ ss.slots ∧ Seen ss hy m.groups m.walltime s R ∧
      ((∀ g ∈ m.groups, GroupOk hy g) → (R ≠ ∅ → ∀ t, t < s.b → ¬ SomeFits ss hy m.groups m.walltime t) ∧
        (R = ∅ → ∀ t, ¬ SomeFits ss hy m.groups m.walltime t)) := by
  obtain ⟨c, hc⟩ := hwf
  unfold find at h
  split at h
  · exact absurd h (by simp)
  · by_cases hw : 0 < m.walltime
    · rw [traverseWidth_all hc hw] at h
      dsimp only at h
      cases hs : searchLoop ss hy m.groups (cands m.walltime c) none with
      | none => rw [hs] at h; exact absurd h (by simp)
      | some res =>
        rw [hs] at h
        dsimp only at h
        subst h
        refine ⟨hw, ?_⟩
        rcases searchLoop_sound hc hw c [] none _ rfl hs with ⟨P, s', Q, R', z', a1, a2, a3, a4, a5⟩ | ⟨a1, a2⟩
        · obtain ⟨rfl, e2⟩ := Prod.mk.inj (Option.some.inj a2)
          obtain ⟨rfl, rfl⟩ := Prod.mk.inj e2
          refine ⟨hc.mem_iff.2 (by rw [a1]; simp), a4, fun hok => ⟨fun _ t ht => ?_, fun hz => absurd hz a3⟩⟩
          refine not_fits_before hc a1 hw hok a5 t (fun y hy => ?_)
          have := slots_after hc a1 y hy
          omega
        · rcases a2 with ⟨h0, _⟩ | ⟨P, s', Q, z', b1, b2, b3, b4⟩
          · exact absurd h0 (by simp)
          · obtain ⟨rfl, e2⟩ := Prod.mk.inj (Option.some.inj b2)
            obtain ⟨rfl, rfl⟩ := Prod.mk.inj e2
            refine ⟨hc.mem_iff.2 (by rw [b1]; simp), b3, fun hok => ⟨fun hz => absurd rfl hz, fun _ t => ?_⟩⟩
            exact not_fits_before hc (P := c) (Q := []) (by simp) hw hok a1 t (by simp)
    · exfalso
      rw [SlotSet.traverseWidth, if_neg hw] at h
      exact absurd h (by simp)

/-- The placement kept for an alternative. -/
structure Placed (ss : SlotSet) (hy : Hy) (mlds : List Mld) (b : Best) : Prop where
  mem : b.mld ∈ mlds
  pos : 0 < b.mld.walltime
  fin : b.finish = b.start + b.mld.walltime - 1
  lo : ss.begin_ ≤ b.start
  hi : b.finish ≤ ss.end_
  win : Window ss b.left b.right b.start b.finish
  shape : ∃ A : ProcSet, (∀ x, x ∈ A ↔ FreeDuring ss b.start b.mld.walltime x) ∧ findJobBasic A hy b.mld.groups = some b.res
  first : (∀ g ∈ b.mld.groups, GroupOk hy g) → (b.res ≠ ∅ → ∀ t, t < b.start → ¬ SomeFits ss hy b.mld.groups b.mld.walltime t) ∧
    (b.res = ∅ → ∀ t, ¬ SomeFits ss hy b.mld.groups b.mld.walltime t)

theorem assignLoop_spec (hwf : WF ss) {job : Job} {hy : Hy} (mlds : List Mld) : ∀ (ms : List Mld) (best res : Option Best),
    (∀ m ∈ ms, m ∈ mlds) → (∀ b, best = some b → Placed ss hy mlds b) → assignLoop ss job hy ms best = some res →
    (∀ b, res = some b → Placed ss hy mlds b) ∧ bestFinish res ≤ bestFinish best ∧
    (∀ m ∈ ms, (∀ g ∈ m.groups, GroupOk hy g) → ∀ t, SomeFits ss hy m.groups m.walltime t → bestFinish res ≤ t + m.walltime - 1)
  | [], best, res, _, hb, h => by
    rw [← Option.some.inj h]
    exact ⟨hb, Int.le_refl _, by simp⟩
  | m :: ms, best, res, hm, hb, h => by
    rw [assignLoop] at h
    cases hf : find ss job m hy with
    | none => rw [hf] at h; exact absurd h (by simp)
    | some v =>
      obtain ⟨R, s, z⟩ := v
      rw [hf] at h
      dsimp only at h
      obtain ⟨hw, hs, ⟨hhi, hsh⟩, hfirst⟩ := find_spec hwf hf
      have hget : ss.get? s.id = some s := by
        obtain ⟨c, hc⟩ := hwf
        exact hc.get (hc.mem_iff.1 hs)
      rw [hget] at h
      dsimp only at h
      have hlo : ss.begin_ ≤ s.b := by
        obtain ⟨c, hc⟩ := hwf
        exact ((tiled_bounds _ _ _ hc.tiled).2 s (hc.mem_iff.1 hs)).1
      have hmine : (∀ g ∈ m.groups, GroupOk hy g) → ∀ t, SomeFits ss hy m.groups m.walltime t → s.b ≤ t := by
        intro hok t hft
        by_contra hlt
        by_cases hz : R = ∅
        · exact (hfirst hok).2 hz t hft
        · exact (hfirst hok).1 hz t (by omega) hft
      by_cases hlt : s.b + m.walltime - 1 < bestFinish best
      · rw [if_pos hlt] at h
        obtain ⟨l', r', he, hwin⟩ := encompassing_window hwf hs (finish := s.b + m.walltime - 1) (by omega) hhi
        rw [he] at h
        dsimp only at h
        obtain ⟨i1, i2, i3⟩ := assignLoop_spec hwf mlds ms _ res (fun x hx => hm x (List.mem_cons_of_mem _ hx))
          (by
            intro b e
            rw [← Option.some.inj e]
            exact ⟨hm m List.mem_cons_self, hw, rfl, hlo, hhi, hwin, hsh, hfirst⟩) h
        have i2' : bestFinish res ≤ s.b + m.walltime - 1 := i2
        refine ⟨i1, by omega, ?_⟩
        intro x hx hok t hft
        rcases List.mem_cons.1 hx with rfl | hx
        · have := hmine hok t hft
          omega
        · exact i3 x hx hok t hft
      · rw [if_neg hlt] at h
        obtain ⟨i1, i2, i3⟩ := assignLoop_spec hwf mlds ms best res (fun x hx => hm x (List.mem_cons_of_mem _ hx)) hb h
        refine ⟨i1, i2, ?_⟩
        intro x hx hok t hft
        rcases List.mem_cons.1 hx with rfl | hx
        · have := hmine hok t hft
          omega
        · exact i3 x hx hok t hft

end

/-- **C75, one job.** The job gets an alternative, a start date and resources such that: they are what the hierarchical search answers on
the resources free during the whole window; those resources, and only those, stop being free during the window (and possibly during the second
that follows, see C02). -/
theorem assign_spec (ctx : Ctx) (ss ss' : SlotSet) (job job' : Job) (hy : Hy) (hwf : WF ss) (h : assign ctx ss job hy = some (ss', job')) :
    WF ss' ∧ ss'.begin_ = ss.begin_ ∧ ss'.end_ = ss.end_ ∧ ∃ m ∈ job.mlds, ∃ R extra, 0 < m.walltime ∧
      job' = { job with moldableId := m.id, resSet := some R, startTime := job'.startTime, walltime := some m.walltime } ∧
      ss.begin_ ≤ job'.startTime ∧ job'.startTime + m.walltime - 1 ≤ ss.end_ ∧
      (∃ A : ProcSet, (∀ x, x ∈ A ↔ FreeDuring ss job'.startTime m.walltime x) ∧ findJobBasic A hy m.groups = some R) ∧
      (∀ t x, Free ss' t x ↔ Free ss t x ∧
        ¬ (x ∈ R ∧ job'.startTime ≤ t ∧ (t < job'.startTime + m.walltime ∨ (extra = true ∧ t = job'.startTime + m.walltime)))) ∧
      ((∀ g ∈ m.groups, GroupOk hy g) → (R ≠ ∅ → ∀ t, t < job'.startTime → ¬ SomeFits ss hy m.groups m.walltime t) ∧
        (R = ∅ → ∀ t, ¬ SomeFits ss hy m.groups m.walltime t)) ∧
      (∀ m' ∈ job.mlds, (∀ g ∈ m'.groups, GroupOk hy g) → ∀ t, SomeFits ss hy m'.groups m'.walltime t →
        job'.startTime + m.walltime ≤ t + m'.walltime) := by
  unfold assign at h
  split at h
  · exact absurd h (by simp)
  · cases hl : assignLoop ss job hy job.mlds none with
    | none => rw [hl] at h; exact absurd h (by simp)
    | some best =>
      rw [hl] at h
      dsimp only at h
      cases best with
      | none => exact absurd h (by simp)
      | some b =>
        dsimp only at h
        obtain ⟨i1, i2, i3⟩ := assignLoop_spec hwf job.mlds job.mlds none (some b) (fun _ hm => hm) (by simp) hl
        have hb := i1 b rfl
        have hpos := hb.pos
        have hwin := hb.win
        rw [hb.fin] at hwin
        obtain ⟨ss3, k1, k2, k3, k4, k5, extra, k6, k7⟩ := split_window (ctx := ctx) (R := b.res) (sub := true)
          (job := { job with moldableId := b.mld.id, resSet := some b.res, startTime := b.start, walltime := some b.mld.walltime }) (by omega) hwin
        rw [k1] at h
        dsimp only at h
        obtain ⟨rfl, rfl⟩ := Prod.mk.inj (Option.some.inj h)
        refine ⟨k2, k3.1, k3.2.1, b.mld, hb.mem, b.res, extra, hb.pos, rfl, hb.lo, ?_, hb.shape, ?_, hb.first, ?_⟩
        · have := hb.hi
          rw [hb.fin] at this
          exact this
        · intro t x
          exact free_map_sub hwf k2 (k7 t) x
        · intro m' hm' hok t hft
          have := i3 m' hm' hok t hft
          have e : bestFinish (some b) = b.finish := rfl
          rw [e, hb.fin] at this
          show b.start + b.mld.walltime ≤ _
          omega

/-- **C75.** What a round gives to the jobs: two jobs never hold a common resource at the same date, and what they hold was free before. -/
theorem basic_disjoint (ctx : Ctx) (hy : Hy) : ∀ (jobs : List Job) (ss ss' : SlotSet) (out : List Job), WF ss → pass ctx hy ss jobs = some (ss', out) →
    WF ss' ∧ (∀ t x, Free ss' t x → Free ss t x) ∧
    out.Pairwise (fun a b => ∀ Ra Rb t, Holds a Ra t → Holds b Rb t → Disjoint Ra Rb) ∧ (∀ a ∈ out, ∀ R t, Holds a R t → ∀ x ∈ R, Free ss t x)
  | [], ss, ss', out, hwf, h => by
    obtain ⟨rfl, rfl⟩ := Prod.mk.inj (Option.some.inj h)
    exact ⟨hwf, fun _ _ h => h, List.Pairwise.nil, by simp⟩
  | j :: js, ss, ss', out, hwf, h => by
    rw [pass] at h
    split at h
    · cases ha : assign ctx ss j hy with
      | none => rw [ha] at h; exact absurd h (by simp)
      | some v =>
        obtain ⟨s1, j'⟩ := v
        rw [ha] at h
        dsimp only at h
        obtain ⟨⟨s2, out2⟩, hp, e⟩ := Option.map_eq_some_iff.1 h
        obtain ⟨rfl, rfl⟩ := Prod.mk.inj e
        obtain ⟨g1, _, _, m, hm, R, extra, hw, hj, hlo, hhi, ⟨A, hA, hR⟩, hfree, _, _⟩ := assign_spec ctx ss s1 j j' hy hwf ha
        obtain ⟨i1, i2, i3, i4⟩ := basic_disjoint ctx hy js s1 s2 out2 g1 hp
        have hold : ∀ Ra t, Holds j' Ra t → Ra = R ∧ j'.startTime ≤ t ∧ t < j'.startTime + m.walltime := by
          rintro Ra t ⟨r1, w, w1, t1, t2⟩
          rw [hj] at r1 w1
          have e1 := Option.some.inj r1
          have e2 := Option.some.inj w1
          exact ⟨e1.symm, t1, by rw [e2]; exact t2⟩
        refine ⟨i1, fun t x hx => ((hfree t x).1 (i2 t x hx)).1, List.Pairwise.cons ?_ i3, ?_⟩
        · intro b hb Ra Rb t h1 h2
          obtain ⟨rfl, t1, t2⟩ := hold Ra t h1
          rw [Finset.disjoint_left]
          intro x hx hx2
          exact ((hfree t x).1 (i4 b hb Rb t h2 x hx2)).2 ⟨hx, t1, Or.inl t2⟩
        · intro a ha2 R2 t h1 x hx
          rcases List.mem_cons.1 ha2 with rfl | ha2
          · obtain ⟨rfl, t1, t2⟩ := hold R2 t h1
            exact (hA x).1 (findJobBasic_subset A hy m.groups _ hR hx) t t1 t2
          · exact ((hfree t x).1 (i4 a ha2 R2 t h1 x hx)).1
    · exact absurd h (by simp)

/-- **C75, jobs whose alternatives all fit somewhere.** For one-group requests, each of which could be placed at some date: the job gets resources, free
during the whole window, that satisfy its request; it could not begin earlier with this alternative; and no alternative could end earlier. -/
theorem basic_best_partial (ctx : Ctx) (ss ss' : SlotSet) (job job' : Job) (hy : Hy) (hwf : WF ss) (h : assign ctx ss job hy = some (ss', job'))
    (hone : ∀ m ∈ job.mlds, ∃ g, m.groups = [g] ∧ GroupOk hy g) (hfit : ∀ m ∈ job.mlds, ∃ t, Feasible ss hy m.groups m.walltime t) :
    ∃ m ∈ job.mlds, ∃ R, job'.moldableId = m.id ∧ job'.walltime = some m.walltime ∧ job'.resSet = some R ∧ R ≠ ∅ ∧
      (∀ x ∈ R, FreeDuring ss job'.startTime m.walltime x ∧ ∀ t, job'.startTime ≤ t → t < job'.startTime + m.walltime → ¬ Free ss' t x) ∧
      (∃ g A, m.groups = [g] ∧ (∀ x, x ∈ A ↔ FreeDuring ss job'.startTime m.walltime x) ∧ findGroup A hy g = some R) ∧
      (∀ t, t < job'.startTime → ¬ Feasible ss hy m.groups m.walltime t) ∧
      (∀ m' ∈ job.mlds, ∀ t, Feasible ss hy m'.groups m'.walltime t → job'.startTime + m.walltime ≤ t + m'.walltime) := by
  obtain ⟨_, _, _, m, hm, R, extra, hw, hj, hlo, hhi, ⟨A, hA, hR⟩, hfree, hfirst, hbest⟩ := assign_spec ctx ss ss' job job' hy hwf h
  have hfe : ∀ m' ∈ job.mlds, ∀ t, Feasible ss hy m'.groups m'.walltime t ↔ SomeFits ss hy m'.groups m'.walltime t := by
    intro m' hm' t
    obtain ⟨g, e, _⟩ := hone m' hm'
    rw [someFits_iff, e]
    simp
  have hok : ∀ m' ∈ job.mlds, ∀ g ∈ m'.groups, GroupOk hy g := by
    intro m' hm' g hg
    obtain ⟨g', e, ok⟩ := hone m' hm'
    rw [e] at hg
    rw [List.mem_singleton.1 hg]
    exact ok
  have hne : R ≠ ∅ := by
    intro hz
    obtain ⟨t, ht⟩ := hfit m hm
    exact (hfirst (hok m hm)).2 hz t ((hfe m hm t).1 ht)
  have hsub := findJobBasic_subset A hy m.groups R hR
  refine ⟨m, hm, R, ?_, ?_, ?_, hne, ?_, ?_, ?_, ?_⟩
  · rw [hj]
  · rw [hj]
  · rw [hj]
  · intro x hx
    refine ⟨(hA x).1 (hsub hx), fun t t1 t2 hf => ?_⟩
    exact ((hfree t x).1 hf).2 ⟨hx, t1, Or.inl t2⟩
  · obtain ⟨g, e, ok⟩ := hone m hm
    refine ⟨g, A, e, hA, ?_⟩
    rw [e, findJobBasic] at hR
    cases hg : findGroup A hy g with
    | none => rw [hg] at hR; exact absurd hR (by simp)
    | some r =>
      rw [hg] at hR
      have := Option.some.inj hR
      rw [← this, Finset.union_empty]
  · intro t ht hf
    exact (hfirst (hok m hm)).1 hne t ht ((hfe m hm t).1 hf)
  · intro m' hm' t hf
    exact hbest m' hm' (hok m' hm') t ((hfe m' hm' t).1 hf)

/-! ## Concrete cases, disagreements -/

/-- Three jobs on four nodes: the third one is backfilled. -/
example : (pass ctx0 hy4 ss0 [wjob 1 3 10, wjob 2 2 10, wjob 3 1 30]).map (fun x => x.2.map (fun j => (j.startTime, j.resSet))) =
    some [(0, some {1, 2, 3}), (10, some {1, 2}), (0, some {4})] := by decide

/-- A moldable job chooses the alternative that ends first. -/
example : (assign ctx0 ss0 { id := 8, mlds := [rqt 80 4 15, rqt 81 1 12] } hy4).map (fun x => (x.2.moldableId, x.2.startTime, x.2.resSet)) =
    some (81, 0, some {1}) := by decide

theorem ss0_feasible (id : Nat) (k w : Int) (hw : 0 < w) (hw2 : w ≤ 1000) (hk : k = 1 ∨ k = 4) : Feasible ss0 hy4 (rqt id k w).groups w 0 := by
  refine ⟨{1, 2, 3, 4}, ?_, by simp [rqt], ?_⟩
  · intro x
    have hb : ∀ u x, Free ss0 u x ↔ 0 ≤ u ∧ u ≤ ss0.end_ ∧ x ∈ ({1, 2, 3, 4} : ProcSet) := by
      intro u x
      constructor
      · rintro ⟨s, hs, h1, h2, hx⟩
        rw [show ss0.slots = (SlotSet.ofItvs ctx0 {1, 2, 3, 4} 0).slots from rfl] at hs
        simp only [SlotSet.ofItvs, List.mem_singleton] at hs
        subst hs
        exact ⟨h1, h2, hx⟩
      · rintro ⟨h1, h2, hx⟩
        exact ⟨_, List.mem_singleton.2 rfl, h1, h2, hx⟩
    have he : (1000 : Int) ≤ ss0.end_ := by decide
    constructor
    · intro hx u h1 h2
      exact (hb u x).2 ⟨h1, by omega, hx⟩
    · intro h
      exact ((hb 0 x).1 (h 0 (Int.le_refl _) (by omega))).2.2
  · intro g hg
    rw [← findGroup_sat _ _ _ (rqt_ok id k w (by omega) g hg)]
    rw [show (rqt id k w).groups = [⟨[("node", k)], {1, 2, 3, 4}⟩] from rfl] at hg
    rw [List.mem_singleton.1 hg]
    rcases hk with rfl | rfl
    · exact ⟨{1}, by decide, by decide⟩
    · exact ⟨{1, 2, 3, 4}, by decide, by decide⟩

/-- The hypotheses of `basic_best_partial` for the moldable job above. -/
example : WF ss0 ∧ (∀ m ∈ mjob.mlds, ∃ g, m.groups = [g] ∧ GroupOk hy4 g) ∧ ∀ m ∈ mjob.mlds, ∃ t, Feasible ss0 hy4 m.groups m.walltime t := by
  refine ⟨ss0_wf, ?_, ?_⟩
  · intro m hm
    simp only [mjob, List.mem_cons, List.not_mem_nil, or_false] at hm
    rcases hm with rfl | rfl
    · exact ⟨_, rfl, rqt_ok 80 4 15 (by decide) _ (by simp [rqt])⟩
    · exact ⟨_, rfl, rqt_ok 81 1 12 (by decide) _ (by simp [rqt])⟩
  · intro m hm
    simp only [mjob, List.mem_cons, List.not_mem_nil, or_false] at hm
    rcases hm with rfl | rfl
    · exact ⟨0, ss0_feasible 80 4 15 (by decide) (by decide) (Or.inr rfl)⟩
    · exact ⟨0, ss0_feasible 81 1 12 (by decide) (by decide) (Or.inl rfl)⟩

/-- C75 (violated). One would expect a job that fits at no date to be left alone: the first job asks for five nodes out of four and gets a
start date, a duration and no resource. -/
theorem basic_impossible_violated : (pass ctx0 hy4 ss0 [wjob 1 5 10]).map (fun x => x.2.map (fun j => (j.startTime, j.walltime, j.resSet))) =
    some [(0, some 10, some ∅)] := by decide

/-- C75 (violated), for all jobs. A job that fits at no date is given a start date of the timeline and an empty set of resources. -/
theorem basic_impossible_all_violated (ctx : Ctx) (ss ss' : SlotSet) (job job' : Job) (hy : Hy) (hwf : WF ss) (h : assign ctx ss job hy = some (ss', job'))
    (hok : ∀ m ∈ job.mlds, ∀ g ∈ m.groups, GroupOk hy g) (hno : ∀ m ∈ job.mlds, ∀ t, ¬ SomeFits ss hy m.groups m.walltime t) :
    job'.resSet = some ∅ ∧ ss.begin_ ≤ job'.startTime ∧ ∃ m ∈ job.mlds, job'.walltime = some m.walltime := by
  obtain ⟨_, _, _, m, hm, R, extra, hw, hj, hlo, hhi, ⟨A, hA, hR⟩, hfree, hfirst, hbest⟩ := assign_spec ctx ss ss' job job' hy hwf h
  refine ⟨?_, hlo, m, hm, by rw [hj]⟩
  obtain ⟨r, h5, h6⟩ := findJobBasic_sat A hy m.groups (hok m hm)
  rw [hR] at h5
  obtain rfl := Option.some.inj h5
  have : R = ∅ := by
    by_contra hne
    exact hno m hm _ ⟨A, hA, h6.1 hne⟩
  rw [hj, this]

/-- C75 (violated). One would expect an alternative that cannot be satisfied not to be chosen: five nodes out of four during five seconds are
preferred to one node during ten seconds. -/
theorem basic_alternative_violated : (assign ctx0 ss0 { id := 8, mlds := [rqt 80 5 5, rqt 81 1 10] } hy4).map (fun x => (x.2.moldableId, x.2.resSet)) =
    some (80, some ∅) ∧ (assign ctx0 ss0 { id := 8, mlds := [rqt 81 1 10] } hy4).map (fun x => (x.2.moldableId, x.2.resSet)) = some (81, some {1}) := by decide

/-- C75 (violated). One would expect a request of two groups to be placed where both fit: it is placed with the resources of one. -/
theorem basic_groups_violated : (assign ctx0 ss0 { id := 8, mlds := [⟨80, 5, [⟨[("node", 1)], {1, 2, 3, 4}⟩, ⟨[("node", 2)], {4}⟩]⟩] } hy4).map
    (fun x => x.2.resSet) = some (some {1}) := by decide

/-- C75 (violated). One would expect a job to begin after the end of the job it depends on. -/
theorem basic_dependencies_violated : (pass ctx0 hy4 ss0 [wjob 1 1 10, { wjob 2 1 10 with deps := [⟨1, "Waiting", none⟩] }]).map
    (fun x => x.2.map (fun j => (j.startTime, j.resSet))) = some [(0, some {1}), (0, some {2})] := by decide

/-- C75 (violated). One would expect the other jobs to be served: one job inside a container (other than `default`) makes the
whole round raise, for all timelines and other jobs. -/
theorem basic_inner_violated (ctx : Ctx) (hy : Hy) (j : Job) (c : String) (hc : j.types.lookup "inner" = some c) (hd : c ≠ "default") :
    ∀ (pre post : List Job) (ss : SlotSet), pass ctx hy ss (pre ++ j :: post) = none
  | [], post, ss => by
    rw [List.nil_append, pass, if_neg]
    rw [hc]
    exact hd
  | p :: pre, post, ss => by
    rw [List.cons_append, pass]
    split
    · cases ha : assign ctx ss p hy with
      | none => rfl
      | some v =>
        dsimp only
        rw [basic_inner_violated ctx hy j c hc hd pre post]
        rfl
    · rfl

end Oar.Basic
