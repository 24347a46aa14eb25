import Verif.SlotInsert

/-!
# `get_encompassing_slots` and `split_slots_jobs`
-/

namespace Oar.Kao
open Spec

/-! ## effect of a job on the content of a slot -/

/-- A slot having the given content (bounds and identity are irrelevant). -/
def Pay.toSlot (p : Pay) : Slot :=
  { id := 0, prev := 0, next := 0, itvs := p.itvs, b := 0, e := 0, ts := p.ts, ph := p.ph,
    q := ⟨p.counters, [], p.rulesId⟩ }

/-- Effect of reserving (`sub`) or adding a job on the content of a slot. -/
def effect (ctx : Ctx) (job : Job) (w : Int) (R : ProcSet) (sub : Bool) (p : Pay) : Pay :=
  (if sub then subSlot ctx job w R p.toSlot else addSlot job R p.toSlot).pay

theorem effect_itvs_sub (ctx : Ctx) (job : Job) (w : Int) (R : ProcSet) (p : Pay) :
    (effect ctx job w R true p).itvs = p.itvs \ R := rfl

theorem effect_itvs_add (ctx : Ctx) (job : Job) (w : Int) (R : ProcSet) (p : Pay) (h1 : job.ts = false)
    (h2 : job.ph = 0) : (effect ctx job w R false p).itvs = p.itvs ∪ R := by
  simp [effect, addSlot, h1, h2, Slot.pay, Pay.toSlot]

theorem keeps_effect (ctx : Ctx) (job : Job) (w : Int) (R : ProcSet) (sub : Bool) :
    Keeps (if sub then subSlot ctx job w R else addSlot job R) := by
  intro s
  cases sub <;> exact ⟨rfl, rfl, rfl, rfl, rfl⟩

theorem pay_effect (ctx : Ctx) (job : Job) (w : Int) (R : ProcSet) (sub : Bool) (s : Slot) :
    ((if sub then subSlot ctx job w R else addSlot job R) s).pay = effect ctx job w R sub s.pay := by
  cases sub
  · rfl
  · simp only [effect, if_true]
    simp only [subSlot, Slot.pay, Pay.toSlot, Pay.mk.injEq, true_and]
    refine ⟨?_, ?_⟩ <;> split <;> rfl

theorem rules_effect (ctx : Ctx) (job : Job) (w : Int) (R : ProcSet) (sub : Bool) (s : Slot) :
    ((if sub then subSlot ctx job w R else addSlot job R) s).q.rulesId = s.q.rulesId ∧
    ((if sub then subSlot ctx job w R else addSlot job R) s).q.rules = s.q.rules := by
  cases sub
  · exact ⟨rfl, rfl⟩
  · simp only [if_true, subSlot]
    constructor <;> split <;> rfl

/-! ## `get_encompassing_slots` -/

theorem leftLoop_spec {ss : SlotSet} {c : List Slot} (h : Partition ss c) (t : Int) :
    ∀ (r A : List Slot) (s : Slot) (fuel : Nat), c = A ++ s :: r → r.length < fuel →
    (∃ x ∈ s :: r, t ≤ x.e) →
    ∃ P a Q, s :: r = P ++ a :: Q ∧ ss.leftLoop t fuel s = some a ∧ (∀ x ∈ P, x.e < t) ∧ t ≤ a.e
  | r, A, s, 0, e, hf, hx => by omega
  | [], A, s, fuel + 1, e, hf, hx => by
    obtain ⟨x, hx, ht⟩ := hx
    simp only [List.mem_cons, List.not_mem_nil, or_false] at hx
    subst hx
    refine ⟨[], x, [], rfl, ?_, by simp, ht⟩
    rw [SlotSet.leftLoop, if_neg (by omega)]
  | s' :: r, A, s, fuel + 1, e, hf, hx => by
    by_cases hc : s.e < t
    · have h' : Partition ss (A ++ s :: s' :: r) := e ▸ h
      obtain ⟨h1, h2, h3⟩ := h'.next_cons
      have hx' : ∃ x ∈ s' :: r, t ≤ x.e := by
        obtain ⟨x, hx, ht⟩ := hx
        rcases List.mem_cons.1 hx with rfl | hx
        · omega
        · exact ⟨x, hx, ht⟩
      obtain ⟨P, a, Q, g1, g2, g3, g4⟩ := leftLoop_spec h t r (A ++ [s]) s' fuel (by simp [e])
        (by simpa using hf) hx'
      refine ⟨s :: P, a, Q, by rw [g1]; rfl, ?_, ?_, g4⟩
      · rw [SlotSet.leftLoop, if_pos hc]; simp only [h3, g2]
      · intro x hx
        rcases List.mem_cons.1 hx with rfl | hx
        · exact hc
        · exact g3 x hx
    · refine ⟨[], s, s' :: r, rfl, ?_, by simp, by omega⟩
      rw [SlotSet.leftLoop, if_neg hc]

theorem rightLoop_spec {ss : SlotSet} {c : List Slot} (h : Partition ss c) (t : Int) :
    ∀ (r A : List Slot) (s : Slot) (fuel : Nat), c = A ++ s :: r → r.length < fuel →
    ∃ P z Q, s :: r = P ++ z :: Q ∧ ss.rightLoop t fuel s = some z ∧ (∀ x ∈ P, x.e < t) ∧
      (t ≤ z.e ∨ Q = [])
  | r, A, s, 0, e, hf => by omega
  | [], A, s, fuel + 1, e, hf => by
    refine ⟨[], s, [], rfl, ?_, by simp, Or.inr rfl⟩
    have h' : Partition ss (A ++ [s]) := e ▸ h
    rw [SlotSet.rightLoop, if_neg (by simp [h'.next_last])]
  | s' :: r, A, s, fuel + 1, e, hf => by
    by_cases hc : s.e < t
    · have h' : Partition ss (A ++ s :: s' :: r) := e ▸ h
      obtain ⟨h1, h2, h3⟩ := h'.next_cons
      obtain ⟨P, a, Q, g1, g2, g3, g4⟩ := rightLoop_spec h t r (A ++ [s]) s' fuel (by simp [e])
        (by simpa using hf)
      refine ⟨s :: P, a, Q, by rw [g1]; rfl, ?_, ?_, g4⟩
      · rw [SlotSet.rightLoop, if_pos ⟨hc, by rw [h1]; exact h2⟩]; simp only [h3, g2]
      · intro x hx
        rcases List.mem_cons.1 hx with rfl | hx
        · exact hc
        · exact g3 x hx
    · refine ⟨[], s, s' :: r, rfl, ?_, by simp, Or.inl (by omega)⟩
      rw [SlotSet.rightLoop, if_neg (by omega)]

/-- In a tiled chain a slot begins one second after the end of its predecessor. -/
theorem tiled_adj {l r : List Slot} {x y : Slot} {lo hi : Int} (h : Tiled lo (l ++ x :: y :: r) hi) :
    y.b = x.e + 1 := by
  rw [tiled_append] at h
  obtain ⟨m, _, _, _, h3⟩ := h
  exact h3.1

theorem encompassing_spec {ss : SlotSet} {c A0 R0 : List Slot} {f : Slot} {tb te : Int} {fid : Nat}
    (h : Partition ss c) (ec : c = A0 ++ f :: R0) (hfid : fid = f.id ∨ (fid = 0 ∧ A0 = []))
    (hle : tb ≤ te) (hend : tb ≤ ss.end_) :
    ∃ l t i r a z, c = l ++ (a :: t) ++ r ∧ a :: t = i ++ [z] ∧
      ss.encompassingSlots tb te fid = some (a.id, z.id) ∧ tb ≤ a.e ∧ (f.b ≤ tb → a.b ≤ tb) ∧
      (tb < f.b → a = f) ∧ (z.b ≤ te ∨ (z = f ∧ tb < f.b)) ∧ (te ≤ z.e ∨ r = []) := by
  have hlen := h.length_eq
  have hR : R0.length < ss.slots.length := by rw [hlen, ec]; simp; omega
  have hstart : (if fid ≠ 0 then ss.get? fid else ss.first?) = some f := by
    have hfpos := (h.range f (by rw [ec]; simp)).1
    rcases hfid with rfl | ⟨rfl, rfl⟩
    · rw [if_pos (by omega)]; exact h.get (by rw [ec]; simp)
    · rw [if_neg (by simp)]
      have h' : Partition ss (f :: R0) := by rw [ec] at h; simpa using h
      exact h'.first
  have hex : ∃ x ∈ f :: R0, tb ≤ x.e := by
    have ht : Tiled ss.begin_ (A0 ++ f :: R0) ss.end_ := ec ▸ h.tiled
    rw [tiled_append] at ht
    obtain ⟨m, _, g2⟩ := ht
    have hne : f :: R0 ≠ [] := by simp
    rcases List.eq_nil_or_concat (f :: R0) with hn | ⟨i, z, hz⟩
    · exact absurd hn hne
    · rw [List.concat_eq_append] at hz
      rw [hz] at g2 ⊢
      have := tiled_last i z _ _ g2
      exact ⟨z, by simp, by omega⟩
  obtain ⟨P, a, Q, g1, g2, g3, g4⟩ := leftLoop_spec h tb R0 A0 f ss.slots.length ec hR hex
  have ec2 : c = (A0 ++ P) ++ a :: Q := by rw [ec, g1]; simp
  have hQ : Q.length < ss.slots.length := by rw [hlen, ec2]; simp; omega
  obtain ⟨P2, z, Q2, k1, k2, k3, k4⟩ := rightLoop_spec h te Q (A0 ++ P) a ss.slots.length ec2 hQ
  have hab : f.b ≤ tb → a.b ≤ tb := by
    intro hf
    rcases List.eq_nil_or_concat P with hn | ⟨P', x, hP⟩
    · subst hn
      simp only [List.nil_append, List.cons.injEq] at g1
      rw [← g1.1]; exact hf
    · rw [List.concat_eq_append] at hP
      have hx := g3 x (by rw [hP]; simp)
      have ht : Tiled ss.begin_ ((A0 ++ P') ++ x :: a :: Q) ss.end_ := by
        have : c = (A0 ++ P') ++ x :: a :: Q := by rw [ec2, hP]; simp
        exact this ▸ h.tiled
      have := tiled_adj ht
      omega
  have haf : tb < f.b → a = f := by
    intro hf
    cases P with
    | nil =>
      simp only [List.nil_append, List.cons.injEq] at g1
      exact g1.1.symm
    | cons x P' =>
      simp only [List.cons_append, List.cons.injEq] at g1
      have hx := g3 x (by simp)
      have hb := (tiled_bounds _ _ _ h.tiled).2 f (by rw [ec]; simp)
      rw [← g1.1] at hx
      omega
  obtain ⟨t, ht⟩ : ∃ t, P2 ++ [z] = a :: t := by
    cases P2 with
    | nil =>
      simp only [List.nil_append, List.cons.injEq] at k1
      exact ⟨[], by simp [k1.1]⟩
    | cons x P2 =>
      simp only [List.cons_append, List.cons.injEq] at k1
      exact ⟨P2 ++ [z], by simp [k1.1]⟩
  refine ⟨A0 ++ P, t, P2, Q2, a, z, ?_, ht.symm, ?_, g4, hab, haf, ?_, k4⟩
  · rw [ec2, k1, ← ht]; simp
  · unfold SlotSet.encompassingSlots
    simp only [hstart, g2, k2]
  · rcases List.eq_nil_or_concat P2 with hn | ⟨P', x, hP⟩
    · subst hn
      simp only [List.nil_append, List.cons.injEq] at k1
      rw [← k1.1]
      by_cases hf : f.b ≤ tb
      · exact Or.inl (le_trans (hab hf) hle)
      · exact Or.inr ⟨haf (by omega), by omega⟩
    · rw [List.concat_eq_append] at hP
      have hx := k3 x (by rw [hP]; simp)
      have htl : Tiled ss.begin_ ((A0 ++ P ++ P') ++ x :: z :: Q2) ss.end_ := by
        have : c = (A0 ++ P ++ P') ++ x :: z :: Q2 := by rw [ec2, k1, hP]; simp
        exact this ▸ h.tiled
      have := tiled_adj htl
      left; omega

/-! ## one job -/

/-- Last second reserved by the insertion of a window `[start, stop)`. -/
def lastReserved (z : Slot) (stop : Int) : Int := rightEnd z.b z.e stop

theorem last_slot {ss : SlotSet} {c l i : List Slot} {z : Slot} (h : Partition ss c)
    (e : c = l ++ (i ++ [z])) : z.e = ss.end_ := by
  have := h.tiled
  rw [e, ← List.append_assoc] at this
  exact (tiled_last _ _ _ _ this).symm

/-- Insertion of one job starting from slot `f`. -/
theorem splitJobStep_strong {ctx : Ctx} {sub : Bool} {ss : SlotSet} {job : Job} {w : Int} {R : ProcSet}
    {f : Slot} (hwf : WF ss) (hf : f ∈ ss.slots) (hfb : f.b ≤ job.startTime ∨ f.b = ss.begin_)
    (hjw : job.walltime = some w) (hjr : job.resSet = some R) (hw : 1 ≤ w)
    (hin : ss.begin_ ≤ job.startTime + w ∧ job.startTime ≤ ss.end_) :
    ∃ ss' fid', ss.splitJobStep ctx sub f.id job = some (ss', fid') ∧ WF ss' ∧ SameMeta ss ss' ∧
      RulesFrom ctx ss ss' ∧ (job.startTime ≤ ss.begin_ → KeepsBegins ss ss') ∧
      (∃ f' ∈ ss'.slots, f'.id = fid' ∧ (f'.b = job.startTime ∨ f'.b = ss.begin_)) ∧
      ∃ hi, (∀ u, ss'.pay u = (ss.pay u).map (fun p =>
          if job.startTime ≤ u ∧ u ≤ hi then effect ctx job w R sub p else p)) ∧
        (hi = min (job.startTime + w - 1) ss.end_ ∨
          (hi = job.startTime + w ∧ (job.startTime + w = ss.begin_ ∨ ∃ s ∈ ss.slots, s.e = job.startTime + w ∧ s.b < job.startTime + w))) := by
  obtain ⟨c, hc⟩ := hwf
  obtain ⟨A0, R0, ec⟩ := List.append_of_mem (hc.mem_iff.1 hf)
  obtain ⟨l, t, i, r, a, z, e1, e2, e3, e4, e5, e6, e7, e8⟩ :=
    encompassing_spec (tb := job.startTime) (te := job.startTime + w - 1) hc ec (Or.inl rfl) (by omega) hin.2
  have hbd := (tiled_bounds _ _ _ hc.tiled).2
  have haf : a.b ≤ job.startTime ∨ (a = f ∧ a.b = ss.begin_ ∧ job.startTime < a.b) := by
    by_cases hle : f.b ≤ job.startTime
    · exact Or.inl (e5 hle)
    · right
      have := e6 (by omega)
      subst this
      exact ⟨rfl, by omega, by omega⟩
  have hzm : z ∈ c := by rw [e1, e2]; simp
  have hzb := hbd z hzm
  have hzr : z.e > job.startTime + w → z.b ≤ job.startTime + w := by
    intro _
    rcases e7 with h7 | ⟨rfl, h7⟩
    · omega
    · rcases hfb with hfb | hfb
      · omega
      · omega
  obtain ⟨ss', g1, g2, g3, g4, g5, g6, g7⟩ := splitSlots_core (ctx := ctx) (job := job) (w := w) (R := R) (sub := sub)
    (keeps_effect ctx job w R sub) (pay_effect ctx job w R sub) (rules_effect ctx job w R sub)
    (e1 ▸ hc) e2 hw (fun _ => e4) hzr
  refine ⟨ss', a.id, ?_, g2, g3, g4, fun hle => g5 (by have := hbd a (by rw [e1]; simp); omega), ?_, rightEnd z.b z.e (job.startTime + w), ?_, ?_⟩
  · unfold SlotSet.splitJobStep
    simp only [hjw, hjr]
    rw [if_pos (by omega)]
    simp only [e3, g1]
  · obtain ⟨a', h1, h2, h3⟩ := g6
    refine ⟨a', h1, h2, ?_⟩
    rcases haf with haf | ⟨_, h4, h5⟩
    · left; rw [h3]; omega
    · right; rw [h3]; omega
  · intro u
    rw [g7]
    have hbeg : ∀ v, ss.pay v ≠ none → ss.begin_ ≤ v := by
      intro v hv
      have := (pay_isSome_iff ⟨c, hc⟩ v).1 (by rwa [Option.isSome_iff_ne_none])
      exact this.1
    cases hu : ss.pay u with
    | none => rfl
    | some p =>
      have hb := hbeg u (by rw [hu]; simp)
      simp only [Option.map_some, Option.some.injEq]
      have hiff : (max a.b job.startTime ≤ u) ↔ job.startTime ≤ u := by
        rcases haf with haf | ⟨_, h4, h5⟩
        · rw [max_eq_right haf]
        · omega
      simp only [hiff]
  · unfold rightEnd
    by_cases hgt : z.e > job.startTime + w
    · rw [if_pos hgt]
      by_cases hb : z.b = job.startTime + w
      · rw [if_pos hb]
        right
        refine ⟨rfl, Or.inl ?_⟩
        rcases e7 with h7 | ⟨rfl, h7⟩
        · omega
        · rcases hfb with hfb | hfb <;> omega
      · rw [if_neg hb]; left; omega
    · rw [if_neg hgt]
      rcases e8 with h8 | h8
      · by_cases heq : z.e = job.startTime + w
        · refine Or.inr ⟨heq, ?_⟩
          rcases e7 with h7 | ⟨rfl, h7⟩
          · exact Or.inr ⟨z, hc.mem_iff.2 hzm, heq, by omega⟩
          · by_cases hlt : z.b < job.startTime + w
            · exact Or.inr ⟨z, hc.mem_iff.2 hzm, heq, hlt⟩
            · rcases hfb with hfb | hfb
              · omega
              · exact Or.inl (by omega)
        · left; omega
      · subst h8
        have hze := last_slot (l := l) (i := i) hc (by rw [e1, e2, List.append_nil])
        by_cases heq : z.e = job.startTime + w
        · refine Or.inr ⟨heq, ?_⟩
          rcases e7 with h7 | ⟨rfl, h7⟩
          · exact Or.inr ⟨z, hc.mem_iff.2 hzm, heq, by omega⟩
          · by_cases hlt : z.b < job.startTime + w
            · exact Or.inr ⟨z, hc.mem_iff.2 hzm, heq, hlt⟩
            · rcases hfb with hfb | hfb
              · omega
              · exact Or.inl (by omega)
        · left; omega

/-- The same, forgetting where the last slot begins. -/
theorem splitJobStep_spec {ctx : Ctx} {sub : Bool} {ss : SlotSet} {job : Job} {w : Int} {R : ProcSet}
    {f : Slot} (hwf : WF ss) (hf : f ∈ ss.slots) (hfb : f.b ≤ job.startTime ∨ f.b = ss.begin_)
    (hjw : job.walltime = some w) (hjr : job.resSet = some R) (hw : 1 ≤ w)
    (hin : ss.begin_ ≤ job.startTime + w ∧ job.startTime ≤ ss.end_) :
    ∃ ss' fid', ss.splitJobStep ctx sub f.id job = some (ss', fid') ∧ WF ss' ∧ SameMeta ss ss' ∧
      RulesFrom ctx ss ss' ∧ (job.startTime ≤ ss.begin_ → KeepsBegins ss ss') ∧
      (∃ f' ∈ ss'.slots, f'.id = fid' ∧ (f'.b = job.startTime ∨ f'.b = ss.begin_)) ∧
      ∃ hi, (∀ u, ss'.pay u = (ss.pay u).map (fun p =>
          if job.startTime ≤ u ∧ u ≤ hi then effect ctx job w R sub p else p)) ∧
        (hi = min (job.startTime + w - 1) ss.end_ ∨
          (hi = job.startTime + w ∧ (job.startTime + w = ss.begin_ ∨ ∃ s ∈ ss.slots, s.e = job.startTime + w))) := by
  obtain ⟨ss', fid', h1, h2, h3, h4, h5, h6, hi, h7, h8⟩ := splitJobStep_strong (ctx := ctx) (sub := sub) hwf hf hfb hjw hjr hw hin
  refine ⟨ss', fid', h1, h2, h3, h4, h5, h6, hi, h7, ?_⟩
  rcases h8 with h8 | ⟨h8, h9 | ⟨s, hs, h9, _⟩⟩
  · exact Or.inl h8
  · exact Or.inr ⟨h8, Or.inl h9⟩
  · exact Or.inr ⟨h8, Or.inr ⟨s, hs, h9⟩⟩

end Oar.Kao
