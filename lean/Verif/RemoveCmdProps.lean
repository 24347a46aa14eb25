import Mathlib.Data.List.Nodup
import Mathlib.Tactic.ByContra
import Verif.RemoveCmd
import Verif.ResourcesProps
import Verif.CliProps

/-!
# C123 : the command `oarremoveresource`
-/

namespace Oar.RemoveCmd

open Oar.Res
open Oar.Jobs (DB JobRow FragRow Event DepRow)

/-! ## Specification -/

/-- The job has used one of the resources. -/
def Used (w : RDB) (S : List Nat) (j : JobRow) : Prop := ∃ a ∈ w.assigned, a.rid ∈ S ∧ a.mold = j.assigned

instance (w : RDB) (S : List Nat) (j : JobRow) : Decidable (Used w S j) := by unfold Used; infer_instance

/-- The identifier is that of a job that has used one of the resources. -/
def Lost (w : RDB) (S : List Nat) (jid : Nat) : Prop := ∃ j ∈ w.db.jobs, j.id = jid ∧ Used w S j

instance (w : RDB) (S : List Nat) (jid : Nat) : Decidable (Lost w S jid) := by unfold Lost; infer_instance

/-- The moldable is that of a job that has used one of the resources. -/
def LostMold (w : RDB) (S : List Nat) (m : Nat) : Prop := ∃ j ∈ w.db.jobs, j.assigned = m ∧ Used w S j

instance (w : RDB) (S : List Nat) (m : Nat) : Decidable (LostMold w S m) := by unfold LostMold; infer_instance

/-- `w'` is `w` without the resources `S`, their logs, and the jobs that have used them with their events, deletion requests and assignments. -/
structure Removed (w : RDB) (S : List Nat) (w' : RDB) : Prop where
  res : w'.res = w.res.filter (fun r => decide (r.id ∉ S))
  rlog : w'.rlog = w.rlog.filter (fun l => decide (l.rid ∉ S))
  assigned : w'.assigned = w.assigned.filter (fun a => decide (a.rid ∉ S ∧ ¬ LostMold w S a.mold))
  jobs : w'.db.jobs = w.db.jobs.filter (fun j => decide (¬ Lost w S j.id))
  events : w'.db.events = w.db.events.filter (fun e => decide (¬ Lost w S e.jid))
  frags : w'.db.frags = w.db.frags.filter (fun f => decide (¬ Lost w S f.jid))
  log : w'.db.log = w.db.log
  deps : w'.db.deps = w.db.deps
  molds : w'.molds = w.molds

/-- The resource is Dead. -/
def IsDead (w : RDB) (i : Nat) : Prop := ∃ r ∈ w.res, r.id = i ∧ r.state = "Dead"

instance (w : RDB) (i : Nat) : Decidable (IsDead w i) := by unfold IsDead; infer_instance

/-- An administrator. -/
def Admin (user : String) : Prop := user = "oar" ∨ user = "root"

/-! ## The removals, one after the other -/

theorem removed_nil (w : RDB) : Removed w [] w := by
  have hu : ∀ j, ¬ Used w [] j := by rintro j ⟨a, _, h, _⟩; simp at h
  have hl : ∀ i, ¬ Lost w [] i := by rintro i ⟨j, _, _, h⟩; exact hu j h
  have hm : ∀ i, ¬ LostMold w [] i := by rintro i ⟨j, _, _, h⟩; exact hu j h
  refine ⟨?_, ?_, ?_, ?_, ?_, ?_, rfl, rfl, rfl⟩ <;> symm <;> rw [List.filter_eq_self] <;> intro a _ <;> simp [hl, hm]

theorem used_append {w : RDB} {S : List Nat} {r : Nat} {j : JobRow} : Used w (S ++ [r]) j ↔ Used w S j ∨ Used w [r] j := by
  unfold Used
  constructor
  · rintro ⟨a, ha, hs, hm⟩
    rcases List.mem_append.1 hs with h | h
    · exact Or.inl ⟨a, ha, h, hm⟩
    · exact Or.inr ⟨a, ha, h, hm⟩
  · rintro (⟨a, ha, hs, hm⟩ | ⟨a, ha, hs, hm⟩)
    · exact ⟨a, ha, List.mem_append_left _ hs, hm⟩
    · exact ⟨a, ha, List.mem_append_right _ hs, hm⟩

/-- The jobs deleted with one more resource. -/
theorem mem_jobsOf {w w1 : RDB} {S : List Nat} (h : Removed w S w1) {r : Nat} (hr : r ∉ S) (j : JobRow) :
    j ∈ jobsOf w1 r ↔ j ∈ w.db.jobs ∧ ¬ Lost w S j.id ∧ Used w [r] j := by
  unfold jobsOf
  rw [List.mem_filter, h.jobs, List.mem_filter, h.assigned]
  constructor
  · rintro ⟨⟨hj, hl⟩, hu⟩
    refine ⟨hj, of_decide_eq_true hl, ?_⟩
    obtain ⟨a, ha, ha2⟩ := List.any_eq_true.1 hu
    simp only [Bool.and_eq_true, beq_iff_eq] at ha2
    exact ⟨a, (List.mem_filter.1 ha).1, by simp [ha2.1], ha2.2⟩
  · rintro ⟨hj, hl, a, ha, har, ham⟩
    refine ⟨⟨hj, decide_eq_true hl⟩, List.any_eq_true.2 ⟨a, List.mem_filter.2 ⟨ha, decide_eq_true ?_⟩, ?_⟩⟩
    · have har : a.rid = r := by simpa using har
      refine ⟨har ▸ hr, ?_⟩
      rintro ⟨k, hk, hka, b, hb, hbS, hbk⟩
      exact hl ⟨j, hj, rfl, b, hb, hbS, by rw [hbk, hka, ham]⟩
    · have har : a.rid = r := by simpa using har
      simp [har, ham]

theorem removed_step {w w1 : RDB} {S : List Nat} (hk : (w.db.jobs.map JobRow.id).Nodup) (h : Removed w S w1) {r : Nat} (hr : r ∉ S) :
    Removed w (S ++ [r]) (removeRows w1 r) := by
  have hlost : ∀ i, Lost w (S ++ [r]) i ↔ Lost w S i ∨ ((jobsOf w1 r).any (fun k => k.id == i)) = true := by
    intro i
    constructor
    · rintro ⟨j, hj, hi, hu⟩
      by_cases hl : Lost w S i
      · exact Or.inl hl
      · refine Or.inr (List.any_eq_true.2 ⟨j, (mem_jobsOf h hr j).2 ⟨hj, by rw [hi]; exact hl, ?_⟩, by simp [hi]⟩)
        rcases used_append.1 hu with hu | hu
        · exact absurd ⟨j, hj, hi, hu⟩ hl
        · exact hu
    · rintro (⟨j, hj, hi, hu⟩ | hu)
      · exact ⟨j, hj, hi, used_append.2 (Or.inl hu)⟩
      · obtain ⟨j, hj, hi⟩ := List.any_eq_true.1 hu
        obtain ⟨hj, _, hu⟩ := (mem_jobsOf h hr j).1 hj
        exact ⟨j, hj, by simpa using hi, used_append.2 (Or.inr hu)⟩
  have hmold : ∀ m, LostMold w (S ++ [r]) m ↔ LostMold w S m ∨ ((jobsOf w1 r).any (fun k => k.assigned == m)) = true := by
    intro m
    constructor
    · rintro ⟨j, hj, hm, hu⟩
      by_cases hl : Lost w S j.id
      · obtain ⟨k, hkm, hki, hku⟩ := hl
        have : k = j := List.inj_on_of_nodup_map hk hkm hj hki
        exact Or.inl ⟨j, hj, hm, this ▸ hku⟩
      · rcases used_append.1 hu with hu | hu
        · exact Or.inl ⟨j, hj, hm, hu⟩
        · exact Or.inr (List.any_eq_true.2 ⟨j, (mem_jobsOf h hr j).2 ⟨hj, hl, hu⟩, by simp [hm]⟩)
    · rintro (⟨j, hj, hi, hu⟩ | hu)
      · exact ⟨j, hj, hi, used_append.2 (Or.inl hu)⟩
      · obtain ⟨j, hj, hi⟩ := List.any_eq_true.1 hu
        obtain ⟨hj, _, hu⟩ := (mem_jobsOf h hr j).1 hj
        exact ⟨j, hj, by simpa using hi, used_append.2 (Or.inr hu)⟩
  have hid : ∀ i, decide (¬ Lost w (S ++ [r]) i) = (!((jobsOf w1 r).any (fun k => k.id == i)) && decide (¬ Lost w S i)) := by
    intro i
    rw [Bool.eq_iff_iff]
    simp only [decide_eq_true_eq, hlost, Bool.and_eq_true, Bool.not_eq_true', not_or, Bool.not_eq_true]
    exact And.comm
  unfold removeRows
  refine ⟨?_, ?_, ?_, ?_, ?_, ?_, h.log, h.deps, h.molds⟩
  · show w1.res.filter _ = _
    rw [h.res, List.filter_filter]
    refine List.filter_congr fun x _ => ?_
    rw [Bool.eq_iff_iff]
    simp
    exact And.comm
  · show w1.rlog.filter _ = _
    rw [h.rlog, List.filter_filter]
    refine List.filter_congr fun x _ => ?_
    rw [Bool.eq_iff_iff]
    simp
    exact And.comm
  · show w1.assigned.filter _ = _
    rw [h.assigned, List.filter_filter]
    refine List.filter_congr fun x _ => ?_
    rw [Bool.eq_iff_iff]
    simp only [decide_eq_true_eq, hmold, Bool.and_eq_true, Bool.not_eq_true', not_or, Bool.not_eq_true, bne_iff_ne, List.mem_append, List.mem_singleton]
    constructor
    · rintro ⟨⟨h1, h2⟩, h3, h4⟩; exact ⟨⟨h3, h1⟩, h4, h2⟩
    · rintro ⟨⟨h1, h2⟩, h3, h4⟩; exact ⟨⟨h2, h4⟩, h1, h3⟩
  · show w1.db.jobs.filter _ = _
    rw [h.jobs, List.filter_filter]
    exact List.filter_congr fun x _ => (hid x.id).symm
  · show w1.db.events.filter _ = _
    rw [h.events, List.filter_filter]
    exact List.filter_congr fun x _ => (hid x.jid).symm
  · show w1.db.frags.filter _ = _
    rw [h.frags, List.filter_filter]
    exact List.filter_congr fun x _ => (hid x.jid).symm

theorem find_removed {w w1 : RDB} {S : List Nat} (h : Removed w S w1) {i : Nat} (hi : i ∉ S) :
    w1.res.find? (fun r => r.id == i) = w.res.find? (fun r => r.id == i) := by
  rw [h.res]
  induction w.res with
  | nil => rfl
  | cons r l ih =>
    rw [List.filter_cons]
    by_cases hr : r.id = i
    · rw [if_pos (by simp [hr, hi]), List.find?_cons_of_pos (by simp [hr]), List.find?_cons_of_pos (by simp [hr])]
    · rw [List.find?_cons_of_neg (l := l) (by simp [hr])]
      split
      · rw [List.find?_cons_of_neg (by simp [hr])]; exact ih
      · exact ih

/-- The loop, for an administrator, after the removal of `S`. -/
theorem loop_exact {w : RDB} {user : String} (hu : Admin user) (hk : (w.db.jobs.map JobRow.id).Nodup) (hr : (w.res.map Res.id).Nodup) :
    ∀ (l : List Nat) (S : List Nat) (w1 : RDB), Removed w S w1 → l.Nodup → (∀ i ∈ l, i ∉ S) → (∀ i ∈ l, ∃ r ∈ w.res, r.id = i) →
      (oarremoveresource user l w1).raised = false ∧ Removed w (S ++ l.filter (fun i => decide (IsDead w i))) (oarremoveresource user l w1).w ∧
      (oarremoveresource user l w1).exits = (l.filter (fun i => ! decide (IsDead w i))).map (fun _ => (3 : Int))
  | [], S, w1, h, _, _, _ => ⟨rfl, by rw [List.filter_nil, List.append_nil]; exact h, rfl⟩
  | i :: l, S, w1, h, hn, hS, he => by
    obtain ⟨r, hrm, hri⟩ := he i List.mem_cons_self
    have hi : i ∉ S := hS i List.mem_cons_self
    have hfind : w.res.find? (fun r => r.id == i) = some r := by
      cases hf : w.res.find? (fun r => r.id == i) with
      | none => exact absurd (List.find?_eq_none.1 hf r hrm) (by simp [hri])
      | some x =>
        have hx : x.id = i := by simpa using List.find?_some hf
        rw [List.inj_on_of_nodup_map hr (List.mem_of_find?_eq_some hf) hrm (hx.trans hri.symm)]
    have hdead : IsDead w i ↔ r.state = "Dead" := by
      constructor
      · rintro ⟨x, hx, hxi, hd⟩
        rw [← List.inj_on_of_nodup_map hr hx hrm (hxi.trans hri.symm)]
        exact hd
      · intro hd
        exact ⟨r, hrm, hri, hd⟩
    have hadm : ¬ (user ≠ "oar" ∧ user ≠ "root") := by
      rintro ⟨a, b⟩
      rcases hu with h | h
      · exact a h
      · exact b h
    have hn' := (List.nodup_cons.1 hn)
    have hrem : removeRes w1 i user = if r.state = "Dead" then some (0, removeRows w1 i) else some (3, w1) := by
      unfold removeRes
      rw [if_neg hadm, find_removed h hi, hfind]
    by_cases hd : r.state = "Dead"
    · rw [if_pos hd] at hrem
      have hw : oarremoveresource user (i :: l) w1 = oarremoveresource user l (removeRows w1 i) := by
        show (match removeRes w1 i user with | none => _ | some (c, w') => _) = _
        rw [hrem]
        rfl
      rw [hw, List.filter_cons, if_pos (decide_eq_true (hdead.2 hd)), List.filter_cons, if_neg (by simp [hdead.2 hd])]
      have ih := loop_exact hu hk hr l (S ++ [i]) (removeRows w1 i) (removed_step hk h hi) hn'.2
        (fun x hx => by
          rw [List.mem_append, List.mem_singleton, not_or]
          exact ⟨hS x (List.mem_cons_of_mem _ hx), fun e => hn'.1 (e ▸ hx)⟩)
        (fun x hx => he x (List.mem_cons_of_mem _ hx))
      rw [List.append_assoc, List.singleton_append] at ih
      exact ih
    · rw [if_neg hd] at hrem
      have hw : oarremoveresource user (i :: l) w1 = { oarremoveresource user l w1 with exits := 3 :: (oarremoveresource user l w1).exits } := by
        show (match removeRes w1 i user with | none => _ | some (c, w') => _) = _
        rw [hrem]
        rfl
      have hnd : ¬ IsDead w i := fun h => hd (hdead.1 h)
      rw [hw, List.filter_cons, if_neg (by simp [hnd]), List.filter_cons, if_pos (by simp [hnd])]
      have ih := loop_exact hu hk hr l S w1 h hn'.2 (fun x hx => hS x (List.mem_cons_of_mem _ hx)) (fun x hx => he x (List.mem_cons_of_mem _ hx))
      exact ⟨ih.1, ih.2.1, by rw [List.map_cons, ← ih.2.2]⟩

/-! ## The command -/

/-- **C123, partial.** The command of an administrator on different resources that exist removes exactly those that are Dead, with their logs and
the jobs that have used them, and nothing else; its exit status is 0 when they are all Dead, 3 otherwise. Missing: a resource that does not exist or
that is given twice (`unknown_violated`, `twice_violated`). -/
theorem command_partial (w : RDB) (user : String) (hu : Admin user) (hk : (w.db.jobs.map JobRow.id).Nodup) (hr : (w.res.map Res.id).Nodup)
    (l : List Nat) (hn : l.Nodup) (he : ∀ i ∈ l, ∃ r ∈ w.res, r.id = i) :
    Removed w (l.filter (fun i => decide (IsDead w i))) (oarremoveresource user l w).w ∧
    (status (oarremoveresource user l w) = 0 ↔ ∀ i ∈ l, IsDead w i) ∧
    (status (oarremoveresource user l w) = 3 ↔ ∃ i ∈ l, ¬ IsDead w i) := by
  obtain ⟨h1, h2, h3⟩ := loop_exact hu hk hr l [] w (removed_nil w) hn (by simp) he
  rw [List.nil_append] at h2
  have hs : status (oarremoveresource user l w) = (Cli.exitValue ⟨(l.filter (fun i => ! decide (IsDead w i))).map (fun _ => (3 : Int)), 0⟩).1 := by
    unfold status
    rw [h1, h3]
    rfl
  obtain ⟨e1, e2, _⟩ := Cli.exit_spec ((l.filter (fun i => ! decide (IsDead w i))).map (fun _ => (3 : Int)))
  have h0 : status (oarremoveresource user l w) = 0 ↔ ∀ i ∈ l, IsDead w i := by
    rw [hs, e1]
    constructor
    · intro h i hi
      by_contra hd
      have := h 3 (List.mem_map.2 ⟨i, List.mem_filter.2 ⟨hi, by simp [hd]⟩, rfl⟩)
      exact absurd this (by decide)
    · intro h e he
      obtain ⟨i, hi, _⟩ := List.mem_map.1 he
      obtain ⟨hi, hd⟩ := List.mem_filter.1 hi
      simp [h i hi] at hd
  refine ⟨h2, h0, ?_⟩
  constructor
  · intro h
    by_contra hc
    rw [h0.2 (fun i hi => by by_contra hd; exact hc ⟨i, hi, hd⟩)] at h
    exact absurd h (by decide)
  · rintro ⟨i, hi, hd⟩
    rw [hs]
    exact e2 3 (List.mem_map.2 ⟨i, List.mem_filter.2 ⟨hi, by simp [hd]⟩, rfl⟩) (by decide) (fun e he _ => by
      obtain ⟨_, _, h⟩ := List.mem_map.1 he
      exact h.symm)

/-- Nobody else removes anything: the exit status is 4. -/
theorem refused (user : String) (h1 : user ≠ "oar") (h2 : user ≠ "root") (l : List Nat) (hl : l ≠ []) (w : RDB) :
    (oarremoveresource user l w).w = w ∧ status (oarremoveresource user l w) = 4 := by
  have h : ∀ l : List Nat, oarremoveresource user l w = ⟨w, l.map (fun _ => (4 : Int)), false⟩ := by
    intro l
    induction l with
    | nil => rfl
    | cons i l ih =>
      have hr : removeRes w i user = some (4, w) := by
        unfold removeRes
        rw [if_pos ⟨h1, h2⟩]
      show (match removeRes w i user with | none => _ | some (c, w') => _) = _
      rw [hr]
      show ({ oarremoveresource user l w with exits := (4 : Int) :: (oarremoveresource user l w).exits } : Out) = _
      rw [ih]
      rfl
  rw [h]
  refine ⟨rfl, ?_⟩
  cases l with
  | nil => exact absurd rfl hl
  | cons i l =>
    exact (Cli.exit_spec _).2.1 4 (by simp) (by decide) (fun e he _ => by
      obtain ⟨_, _, h⟩ := List.mem_map.1 he
      exact h.symm)

/-- **C123 (killed).** Wherever the command is killed, the resources treated are removed entirely and the others not at all. -/
theorem killed_exact (w : RDB) (user : String) (hu : Admin user) (hk : (w.db.jobs.map JobRow.id).Nodup) (hr : (w.res.map Res.id).Nodup)
    (l : List Nat) (hn : l.Nodup) (he : ∀ i ∈ l, ∃ r ∈ w.res, r.id = i) (n : Nat) :
    Removed w ((l.take n).filter (fun i => decide (IsDead w i))) (killed n user l w) :=
  (command_partial w user hu hk hr (l.take n) ((List.take_sublist n l).nodup hn) (fun i hi => he i (List.mem_of_mem_take hi))).1

/-- **C123 (jobs that last), partial.** When no job that is not over uses one of the Dead resources, each of these jobs keeps its row and its
resources, and waits for the same jobs that are not over. Missing: `running_violated`. -/
theorem active_partial (w : RDB) (user : String) (hu : Admin user) (hk : (w.db.jobs.map JobRow.id).Nodup) (hr : (w.res.map Res.id).Nodup)
    (hm : ∀ j ∈ w.db.jobs, ∀ k ∈ w.db.jobs, j.assigned = k.assigned → j.assigned ≠ 0 → j = k)
    (l : List Nat) (hn : l.Nodup) (he : ∀ i ∈ l, ∃ r ∈ w.res, r.id = i)
    (hfree : ∀ j ∈ w.db.jobs, j.state ≠ "Terminated" → j.state ≠ "Error" →
      ¬ ∃ a ∈ w.assigned, a.mold = j.assigned ∧ a.rid ∈ l ∧ ∃ r ∈ w.res, r.id = a.rid ∧ r.state = "Dead")
    (j : JobRow) (hj : j ∈ w.db.jobs) (h1 : j.state ≠ "Terminated") (h2 : j.state ≠ "Error") :
    j ∈ (oarremoveresource user l w).w.db.jobs ∧
    (j.assigned ≠ 0 → ∀ a ∈ w.assigned, a.mold = j.assigned → a ∈ (oarremoveresource user l w).w.assigned) ∧
    ∀ i, (⟨i, j.id⟩ : DepRow) ∈ w.db.deps → (j.id, j.state, j.exitCode) ∈ awaited (oarremoveresource user l w).w i := by
  have h := (command_partial w user hu hk hr l hn he).1
  have hnu : ¬ Used w (l.filter (fun i => decide (IsDead w i))) j := by
    rintro ⟨a, ha, hS, hm⟩
    obtain ⟨hl, hd⟩ := List.mem_filter.1 hS
    exact hfree j hj h1 h2 ⟨a, ha, hm, hl, of_decide_eq_true hd⟩
  have hnl : ¬ Lost w (l.filter (fun i => decide (IsDead w i))) j.id := by
    rintro ⟨k, hkm, hki, hku⟩
    rw [List.inj_on_of_nodup_map hk hkm hj hki] at hku
    exact hnu hku
  have hjm : j ∈ (oarremoveresource user l w).w.db.jobs := by
    rw [h.jobs]
    exact List.mem_filter.2 ⟨hj, decide_eq_true hnl⟩
  refine ⟨hjm, ?_, ?_⟩
  · intro h0 a ha ham
    rw [h.assigned]
    refine List.mem_filter.2 ⟨ha, decide_eq_true ⟨fun hS => hnu ⟨a, ha, hS, ham⟩, ?_⟩⟩
    rintro ⟨k, hkm, hka, hku⟩
    rw [← hm j hj k hkm (ham ▸ hka.symm) h0] at hku
    exact hnu hku
  · intro i hw
    unfold awaited
    rw [h.deps]
    exact List.mem_flatMap.2 ⟨_, List.mem_filter.2 ⟨hw, by simp⟩, List.mem_map.2 ⟨j, List.mem_filter.2 ⟨hjm, by simp⟩, rfl⟩⟩

/-! ## Where the property fails, examples -/

/-- Two Dead resources, one Alive; job 1 runs on a Dead resource and on the Alive one, job 2 waits for it, job 3 is over. -/
def exRm : RDB :=
  ⟨[{ id := 1, host := "n1", state := "Dead" }, { id := 2, host := "n2", state := "Alive" }, { id := 3, host := "n3", state := "Dead" }],
   [⟨1, "state", "Dead", 5, 0⟩, ⟨2, "state", "Alive", 5, 0⟩],
   ⟨[{ id := 1, user := "bob", state := "Running", assigned := 7 }, { id := 2, user := "bob", state := "Waiting" },
     { id := 3, user := "eve", state := "Terminated", assigned := 9 }], [], [], [], [⟨2, 1⟩]⟩,
   [⟨7, 1, true⟩, ⟨7, 2, true⟩, ⟨9, 3, false⟩], [(7, 1), (8, 2), (9, 3)]⟩

/-- A resource that does not exist stops the command: the Dead resources that follow remain. -/
theorem unknown_violated : (oarremoveresource "root" [3, 8, 1] exRm).w.res.map Res.id = [1, 2] ∧ status (oarremoveresource "root" [3, 8, 1] exRm) = 1 := by
  decide +kernel

/-- A resource given twice stops the command; so does, for the same reason, a command run again after it has been killed. -/
theorem twice_violated : (oarremoveresource "root" [3, 3, 1] exRm).w.res.map Res.id = [1, 2] ∧ status (oarremoveresource "root" [3, 3, 1] exRm) = 1 ∧
    (oarremoveresource "root" [3, 1] (killed 1 "root" [3, 1] exRm)).w.res.map Res.id = [1, 2] ∧
    status (oarremoveresource "root" [3, 1] (killed 1 "root" [3, 1] exRm)) = 1 := by decide +kernel

/-- The removal of a Dead resource removes a job that runs: its other resource, which is Alive, is nobody's any more, the job that waits for its
end does not wait any more, and its moldable remains. -/
theorem running_violated : (oarremoveresource "root" [1] exRm).w.db.jobs.map (fun j => (j.id, j.state)) = [(2, "Waiting"), (3, "Terminated")] ∧
    (∃ a ∈ exRm.assigned, a.rid = 2) ∧ (∀ a ∈ (oarremoveresource "root" [1] exRm).w.assigned, a.rid ≠ 2) ∧
    awaited exRm 2 = [(1, "Running", none)] ∧ awaited (oarremoveresource "root" [1] exRm).w 2 = [] ∧
    (7, 1) ∈ (oarremoveresource "root" [1] exRm).w.molds ∧ status (oarremoveresource "root" [1] exRm) = 0 := by decide +kernel

/-- The hypotheses of the theorems are met: a removal with a resource that is not Dead, and one that touches no job that lasts. -/
theorem command_example : (exRm.db.jobs.map JobRow.id).Nodup ∧ (exRm.res.map Res.id).Nodup ∧ (∀ i ∈ [3, 2], ∃ r ∈ exRm.res, r.id = i) ∧
    (∀ j ∈ exRm.db.jobs, ∀ k ∈ exRm.db.jobs, j.assigned = k.assigned → j.assigned ≠ 0 → j = k) ∧
    (∀ j ∈ exRm.db.jobs, j.state ≠ "Terminated" → j.state ≠ "Error" →
      ¬ ∃ a ∈ exRm.assigned, a.mold = j.assigned ∧ a.rid ∈ [3, 2] ∧ ∃ r ∈ exRm.res, r.id = a.rid ∧ r.state = "Dead") ∧
    (oarremoveresource "root" [3, 2] exRm).w.res.map Res.id = [1, 2] ∧ (oarremoveresource "root" [3, 2] exRm).w.db.jobs.map JobRow.id = [1, 2] ∧
    status (oarremoveresource "root" [3, 2] exRm) = 3 ∧ status (oarremoveresource "root" [3] exRm) = 0 := by decide +kernel

end Oar.RemoveCmd
