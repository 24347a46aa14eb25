import Verif.Queues
import Mathlib.Tactic.Linarith
import Mathlib.Tactic.Positivity
import Mathlib.Tactic.FieldSimp
import Mathlib.Tactic.NormNum

/-!
# C31, C60, C61: queues by priority, order of the waiting jobs, cap; fair-sharing settings
-/

namespace Oar.Queues

open Oar.Accounting

/-! ## Specification -/

/-- `out` is *the* stable sort of `l` by increasing key: the same elements, sorted, and elements with equal keys in
their original order. -/
def StableSortOf {α κ : Type} [LE κ] [DecidableEq κ] (key : α → κ) (l out : List α) : Prop :=
  out.Perm l ∧ out.Pairwise (fun a b => key a ≤ key b) ∧
    ∀ k : κ, out.filter (fun a => decide (key a = k)) = l.filter (fun a => decide (key a = k))

/-- `a` comes before `b` in `l`. -/
def Before {α : Type} (l : List α) (a b : α) : Prop := ∃ x y z, l = x ++ a :: y ++ b :: z

/-! ## Sorting -/

section sort
variable {α κ : Type} [LinearOrder κ]

theorem insertBy_perm (key : α → κ) (x : α) (l : List α) : (insertBy key x l).Perm (x :: l) := by
  induction l with
  | nil => exact List.Perm.refl _
  | cons y l ih =>
    unfold insertBy
    split
    · exact List.Perm.refl _
    · exact (List.Perm.cons y ih).trans (List.Perm.swap x y l)

theorem insertBy_sorted (key : α → κ) (x : α) (l : List α) (h : l.Pairwise (fun a b => key a ≤ key b)) :
    (insertBy key x l).Pairwise (fun a b => key a ≤ key b) := by
  induction l with
  | nil => simp [insertBy]
  | cons y l ih =>
    unfold insertBy
    have h' := List.pairwise_cons.1 h
    split
    · rename_i hle
      refine List.pairwise_cons.2 ⟨?_, h⟩
      intro a ha
      rcases List.mem_cons.1 ha with rfl | ha
      · exact hle
      · exact le_trans hle (h'.1 a ha)
    · rename_i hle
      refine List.pairwise_cons.2 ⟨?_, ih h'.2⟩
      intro a ha
      rcases List.mem_cons.1 ((insertBy_perm key x l).mem_iff.1 ha) with rfl | ha
      · exact le_of_lt (not_le.1 hle)
      · exact h'.1 a ha

theorem insertBy_filter (key : α → κ) (x : α) (l : List α) (k : κ) :
    (insertBy key x l).filter (fun a => decide (key a = k)) = (x :: l).filter (fun a => decide (key a = k)) := by
  induction l with
  | nil => simp [insertBy]
  | cons y l ih =>
    unfold insertBy
    split
    · rfl
    · rename_i hle
      rw [List.filter_cons, ih]
      by_cases hx : key x = k <;> by_cases hy : key y = k
      · exact absurd (le_of_eq (hx.trans hy.symm)) hle
      · simp [hx, hy]
      · simp [hx, hy]
      · simp [hx, hy]

/-- The model of `sorted` is the stable sort. -/
theorem sorted_spec (key : α → κ) (l : List α) : StableSortOf key l (pySort key l) := by
  induction l with
  | nil => exact ⟨List.Perm.refl _, List.Pairwise.nil, fun _ => rfl⟩
  | cons x l ih =>
    obtain ⟨h1, h2, h3⟩ := ih
    refine ⟨(insertBy_perm key x _).trans (List.Perm.cons x h1), insertBy_sorted key x _ h2, ?_⟩
    intro k
    show (insertBy key x (pySort key l)).filter _ = _
    rw [insertBy_filter, List.filter_cons, List.filter_cons, h3 k]

/-- The specification determines the result. -/
theorem stable_sort_unique (key : α → κ) (l o1 o2 : List α) (h1 : StableSortOf key l o1) (h2 : StableSortOf key l o2) :
    o1 = o2 := by
  obtain ⟨-, s1, f1⟩ := h1
  obtain ⟨-, s2, f2⟩ := h2
  have hf : ∀ k : κ, o1.filter (fun a => decide (key a = k)) = o2.filter (fun a => decide (key a = k)) :=
    fun k => (f1 k).trans (f2 k).symm
  clear f1 f2
  induction o1 generalizing o2 with
  | nil =>
    cases o2 with
    | nil => rfl
    | cons b l2 =>
      have := hf (key b)
      simp at this
  | cons a l1 ih =>
    cases o2 with
    | nil =>
      have := hf (key a)
      simp at this
    | cons b l2 =>
      have p1 := List.pairwise_cons.1 s1
      have p2 := List.pairwise_cons.1 s2
      have hab : key a = key b := by
        apply le_antisymm
        · have : b ∈ (a :: l1).filter (fun x => decide (key x = key b)) := by
            rw [hf (key b)]; simp
          rcases List.mem_cons.1 (List.mem_filter.1 this).1 with h | h
          · rw [h]
          · exact p1.1 b h
        · have : a ∈ (b :: l2).filter (fun x => decide (key x = key a)) := by
            rw [← hf (key a)]; simp
          rcases List.mem_cons.1 (List.mem_filter.1 this).1 with h | h
          · rw [h]
          · exact p2.1 a h
      have heq : a = b := by
        have := hf (key a)
        rw [List.filter_cons, List.filter_cons] at this
        simp only [hab, decide_true, if_true] at this
        exact (List.cons.inj this).1
      subst heq
      rw [ih l2 s1.of_cons s2.of_cons]
      intro k
      have := hf k
      rw [List.filter_cons, List.filter_cons] at this
      by_cases hk : key a = k
      · simp only [hk, decide_true, if_true] at this
        exact (List.cons.inj this).2
      · simpa [hk] using this

/-- In a stable sort, a smaller key comes first. -/
theorem stable_before (key : α → κ) (l out : List α) (h : StableSortOf key l out) (a b : α) (ha : a ∈ l) (hb : b ∈ l)
    (hk : key a < key b) : Before out a b := by
  obtain ⟨hp, hs, _⟩ := h
  have ha' := hp.mem_iff.2 ha
  have hb' := hp.mem_iff.2 hb
  obtain ⟨x, y, rfl⟩ := List.append_of_mem ha'
  rcases List.mem_append.1 hb' with h | h
  · exact absurd ((List.pairwise_append.1 hs).2.2 b h a (by simp)) (not_le.2 hk)
  · rcases List.mem_cons.1 h with h | h
    · exact absurd hk (by rw [h]; exact lt_irrefl _)
    · obtain ⟨u, v, rfl⟩ := List.append_of_mem h
      exact ⟨x, u, v, by simp⟩

/-- In a stable sort, two elements with non strictly increasing keys which were in this order stay in this order. -/
theorem stable_before_eq (key : α → κ) (l out : List α) (h : StableSortOf key l out) (a b : α) (hab : Before l a b)
    (hk : key a ≤ key b) : Before out a b := by
  rcases lt_or_eq_of_le hk with hk | hk
  · obtain ⟨x, y, z, e⟩ := hab
    exact stable_before key l out h a b (by rw [e]; simp) (by rw [e]; simp) hk
  · obtain ⟨x, y, z, e⟩ := hab
    have hf := h.2.2 (key a)
    have hsub : [a, b].Sublist (l.filter (fun c => decide (key c = key a))) := by
      have : [a, b].Sublist l := by
        rw [e]
        have h1 : [a].Sublist (x ++ a :: y) := by
          rw [List.singleton_sublist]; simp
        have h2 : [b].Sublist (b :: z) := by
          rw [List.singleton_sublist]; simp
        exact List.Sublist.append h1 h2
      have h3 := this.filter (fun c => decide (key c = key a))
      simpa [hk] using h3
    rw [← hf] at hsub
    have hsub2 : [a, b].Sublist out := hsub.trans List.filter_sublist
    clear hf hsub
    revert hsub2
    clear h
    intro hs
    induction out with
    | nil => cases hs
    | cons c o ih =>
      cases hs with
      | cons _ h =>
        obtain ⟨u, v, w, e2⟩ := ih h
        exact ⟨c :: u, v, w, by rw [e2]; simp⟩
      | cons_cons _ h =>
        obtain ⟨v, w, rfl⟩ := List.append_of_mem (List.singleton_sublist.1 h)
        exact ⟨[], v, w, rfl⟩

end sort

/-! ## Groups of queues -/

theorem groupby_flatten {α : Type} (key : α → Int) (l : List α) : (groupby key l).flatten = l := by
  induction l with
  | nil => rfl
  | cons x l ih =>
    unfold groupby
    cases hg : groupby key l with
    | nil => rw [hg] at ih; simp at ih; simp [← ih]
    | cons g gs =>
      rw [hg] at ih
      cases g with
      | nil => simpa using ih
      | cons y g =>
        dsimp only
        split <;> simpa using ih

theorem groupby_nonempty {α : Type} (key : α → Int) (l : List α) : ∀ g ∈ groupby key l, g ≠ [] := by
  induction l with
  | nil => simp [groupby]
  | cons x l ih =>
    unfold groupby
    cases hg : groupby key l with
    | nil => simp
    | cons g gs =>
      rw [hg] at ih
      cases g with
      | nil => exact absurd rfl (ih [] (by simp))
      | cons y g =>
        dsimp only
        have h2 : ∀ g ∈ gs, g ≠ [] := fun g hg => ih g (List.mem_cons_of_mem _ hg)
        split
        · intro g' hg'
          rcases List.mem_cons.1 hg' with rfl | hg'
          · simp
          · exact h2 _ hg'
        · intro g' hg'
          rcases List.mem_cons.1 hg' with rfl | hg'
          · simp
          · exact ih _ hg'

theorem groupby_same {α : Type} (key : α → Int) (l : List α) :
    ∀ g ∈ groupby key l, ∀ a ∈ g, ∀ b ∈ g, key a = key b := by
  induction l with
  | nil => simp [groupby]
  | cons x l ih =>
    unfold groupby
    cases hg : groupby key l with
    | nil => simp
    | cons g gs =>
      rw [hg] at ih
      cases g with
      | nil =>
        intro g' hg'
        rcases List.mem_cons.1 hg' with rfl | hg'
        · simp
        · exact ih _ (List.mem_cons_of_mem _ hg')
      | cons y g =>
        dsimp only
        split
        · rename_i hxy
          intro g' hg'
          rcases List.mem_cons.1 hg' with rfl | hg'
          · have hy := ih _ (List.mem_cons_self)
            have hall : ∀ a ∈ x :: y :: g, key a = key y := by
              intro a ha
              rcases List.mem_cons.1 ha with rfl | ha
              · exact hxy
              · exact hy a ha y (by simp)
            intro a ha b hb
            rw [hall a ha, hall b hb]
          · exact ih _ (List.mem_cons_of_mem _ hg')
        · intro g' hg'
          rcases List.mem_cons.1 hg' with rfl | hg'
          · simp
          · exact ih _ hg'

/-- On a list sorted by decreasing key, the groups have strictly decreasing keys. -/
theorem groupby_decreasing {α : Type} (key : α → Int) (l : List α) (h : l.Pairwise (fun a b => key b ≤ key a)) :
    (groupby key l).Pairwise (fun g1 g2 => ∀ a ∈ g1, ∀ b ∈ g2, key b < key a) := by
  induction l with
  | nil => simp [groupby]
  | cons x l ih =>
    have h' := List.pairwise_cons.1 h
    have ih' := ih h'.2
    have hfl := groupby_flatten key l
    have hsame := groupby_same key l
    have hne := groupby_nonempty key l
    unfold groupby
    cases hg : groupby key l with
    | nil => simp
    | cons g gs =>
      rw [hg] at ih' hfl hsame hne
      have hp := List.pairwise_cons.1 ih'
      cases g with
      | nil => exact absurd rfl (hne [] (by simp))
      | cons y g =>
        have hyl : y ∈ l := by rw [← hfl]; simp
        dsimp only
        split
        · rename_i hxy
          refine List.pairwise_cons.2 ⟨?_, hp.2⟩
          intro g' hg' a ha b hb
          rcases List.mem_cons.1 ha with rfl | ha
          · rw [hxy]; exact hp.1 g' hg' y (by simp) b hb
          · exact hp.1 g' hg' a ha b hb
        · rename_i hxy
          have hlt : key y < key x := lt_of_le_of_ne (h'.1 y hyl) (fun e => hxy e.symm)
          refine List.pairwise_cons.2 ⟨?_, ih'⟩
          intro g' hg' a ha b hb
          have hax : a = x := by simpa using ha
          subst hax
          rcases List.mem_cons.1 hg' with rfl | hg'
          · rw [hsame _ (List.mem_cons_self) b hb y (by simp)]; exact hlt
          · exact lt_trans (hp.1 g' hg' y (by simp) b hb) hlt

/-- C31. Whatever the order in which the database returns rows of equal priority: the groups are a partition of the
table of queues (each row once), each group holds exactly the queues of one priority, and the groups come in strictly
decreasing priority order. -/
theorem queues_grouped (table rows : List Queue) (hperm : rows.Perm table)
    (hord : rows.Pairwise (fun a b => b.priority ≤ a.priority)) :
    ((queuesGroupby rows).flatten).Perm table ∧
    (∀ g ∈ queuesGroupby rows, g ≠ [] ∧ ∃ p : Int, ∀ q : Queue, q ∈ g ↔ q ∈ table ∧ q.priority = p) ∧
    (queuesGroupby rows).Pairwise (fun g1 g2 => ∀ a ∈ g1, ∀ b ∈ g2, b.priority < a.priority) := by
  have hfl := groupby_flatten (fun q : Queue => q.priority) rows
  have hdec := groupby_decreasing (fun q : Queue => q.priority) rows hord
  refine ⟨?_, ?_, hdec⟩
  · show (groupby _ rows).flatten.Perm table
    rw [hfl]; exact hperm
  · intro g hg
    replace hg : g ∈ groupby (fun q : Queue => q.priority) rows := hg
    have hne := groupby_nonempty (fun q : Queue => q.priority) rows g hg
    have hs := groupby_same (fun q : Queue => q.priority) rows g hg
    refine ⟨hne, ?_⟩
    cases g with
    | nil => exact absurd rfl hne
    | cons y g =>
      refine ⟨y.priority, ?_⟩
      intro q
      constructor
      · intro hq
        refine ⟨hperm.mem_iff.1 ?_, hs q hq y (by simp)⟩
        rw [← hfl]; exact List.mem_flatten.2 ⟨_, hg, hq⟩
      · rintro ⟨hq, hp⟩
        have hq' := hperm.mem_iff.2 hq
        rw [← hfl] at hq'
        obtain ⟨g', hg', hqg'⟩ := List.mem_flatten.1 hq'
        obtain ⟨i, hi, ei⟩ := List.getElem_of_mem hg
        obtain ⟨k, hk, ek⟩ := List.getElem_of_mem hg'
        have hpw := List.pairwise_iff_getElem.1 hdec
        rcases Nat.lt_trichotomy i k with h | h | h
        · have := hpw i k hi hk h y (by rw [ei]; simp) q (by rw [ek]; exact hqg')
          omega
        · subst h
          rw [ei] at ek; rw [ek]; exact hqg'
        · have := hpw k i hk hi h q (by rw [ek]; exact hqg') y (by rw [ei]; simp)
          omega

example :
    let q (n : String) (p : Int) (a : Bool) : Queue := ⟨n, p, a⟩
    scheduledGroups [q "admin" 10 true, q "default" 2 true, q "slow" 2 false, q "besteffort" 0 true] =
      [["admin"], ["default"], ["besteffort"]] := by
  decide

/-- C31. Each active queue is scheduled exactly as many times as it appears in the table (once, names being the primary
key), an inactive queue is never scheduled. -/
theorem active_queues_scheduled (table rows : List Queue) (hperm : rows.Perm table) :
    ((scheduledGroups rows).flatten).Perm ((table.filter (·.active)).map (·.name)) := by
  have : (scheduledGroups rows).flatten = (rows.filter (·.active)).map (·.name) := by
    have hfl := groupby_flatten (fun q : Queue => q.priority) rows
    unfold scheduledGroups queuesGroupby
    generalize groupby (fun q : Queue => q.priority) rows = gg at hfl ⊢
    subst hfl
    induction gg with
    | nil => rfl
    | cons g gs _ => simp [Function.comp_def]
  rw [this]
  exact (hperm.filter _).map _

/-- C31. A queue of higher priority is scheduled in an earlier group than a queue of lower priority. -/
theorem higher_priority_first (rows : List Queue) (hord : rows.Pairwise (fun a b => b.priority ≤ a.priority))
    (a b : Queue) (ha : a ∈ rows) (hb : b ∈ rows) (haa : a.active = true) (hba : b.active = true)
    (hlt : b.priority < a.priority) :
    ∃ i k : Nat, i < k ∧ (∃ g, (scheduledGroups rows)[i]? = some g ∧ a.name ∈ g) ∧
      (∃ g, (scheduledGroups rows)[k]? = some g ∧ b.name ∈ g) := by
  have hfl := groupby_flatten (fun q : Queue => q.priority) rows
  have hdec := List.pairwise_iff_getElem.1 (groupby_decreasing (fun q : Queue => q.priority) rows hord)
  have hsame := groupby_same (fun q : Queue => q.priority) rows
  rw [← hfl] at ha hb
  obtain ⟨ga, hga, haga⟩ := List.mem_flatten.1 ha
  obtain ⟨gb, hgb, hbgb⟩ := List.mem_flatten.1 hb
  obtain ⟨i, hi, ei⟩ := List.getElem_of_mem hga
  obtain ⟨k, hk, ek⟩ := List.getElem_of_mem hgb
  refine ⟨i, k, ?_, ?_, ?_⟩
  · rcases Nat.lt_trichotomy i k with h | h | h
    · exact h
    · subst h
      rw [ei] at ek
      subst ek
      have := hsame _ hga a haga b hbgb
      omega
    · have := hdec k i hk hi h b (by rw [ek]; exact hbgb) a (by rw [ei]; exact haga)
      omega
  · refine ⟨(ga.filter (·.active)).map (·.name), ?_, ?_⟩
    · have : (queuesGroupby rows)[i]? = some ga := by
        show (groupby _ rows)[i]? = _
        rw [List.getElem?_eq_getElem hi, ei]
      simp [scheduledGroups, this]
    · exact List.mem_map.2 ⟨a, List.mem_filter.2 ⟨haga, haa⟩, rfl⟩
  · refine ⟨(gb.filter (·.active)).map (·.name), ?_, ?_⟩
    · have : (queuesGroupby rows)[k]? = some gb := by
        show (groupby _ rows)[k]? = _
        rw [List.getElem?_eq_getElem hk, ek]
      simp [scheduledGroups, this]
    · exact List.mem_map.2 ⟨b, List.mem_filter.2 ⟨hbgb, hba⟩, rfl⟩

/-! ## Waiting jobs and their order -/

/-- C31. The waiting jobs of a group: exactly the waiting jobs of these queues which are not advance reservations, each
once, by increasing id. -/
theorem waiting_jobs (queues : List String) (jobs : List WJob) :
    (∀ j : WJob, j ∈ waitingJobs queues jobs ↔
      j ∈ jobs ∧ j.state = "Waiting" ∧ j.queue ∈ queues ∧ j.reservation = "None") ∧
    (∀ j : WJob, j.state = "Waiting" → j.queue ∈ queues → j.reservation = "None" →
      (waitingJobs queues jobs).count j = jobs.count j) ∧
    (waitingJobs queues jobs).Pairwise (fun a b => a.id ≤ b.id) := by
  have h := sorted_spec (fun j : WJob => j.id)
    (jobs.filter (fun j => decide (j.state = "Waiting" ∧ j.queue ∈ queues ∧ j.reservation = "None")))
  refine ⟨?_, ?_, h.2.1⟩
  · intro j
    show j ∈ pySort _ _ ↔ _
    rw [h.1.mem_iff, List.mem_filter]
    simp
  · intro j h1 h2 h3
    show (pySort _ _).count j = _
    rw [h.1.count_eq, List.count_filter]
    simp [h1, h2, h3]

theorem evalKeys_some (f : WJob → Option Rat) (l : List WJob) (r : List (Rat × WJob)) (h : evalKeys f l = some r) :
    r.map (·.2) = l ∧ ∀ x ∈ r, f x.2 = some x.1 := by
  induction l generalizing r with
  | nil => simp [evalKeys] at h; subst h; simp
  | cons j l ih =>
    unfold evalKeys at h
    cases hf : f j with
    | none => rw [hf] at h; simp at h
    | some k =>
      cases hr : evalKeys f l with
      | none => rw [hf, hr] at h; simp at h
      | some r' =>
        rw [hf, hr] at h
        have h : (k, j) :: r' = r := by simpa using h
        subst h
        obtain ⟨h1, h2⟩ := ih r' hr
        refine ⟨by simp [h1], ?_⟩
        intro x hx
        rcases List.mem_cons.1 hx with rfl | hx
        · exact hf
        · exact h2 x hx

theorem evalKeys_none (f : WJob → Option Rat) (l : List WJob) : evalKeys f l = none ↔ ∃ j ∈ l, f j = none := by
  induction l with
  | nil => simp [evalKeys]
  | cons j l ih =>
    unfold evalKeys
    cases hf : f j with
    | none => simp [hf]
    | some k =>
      cases hr : evalKeys f l with
      | none => simpa using Or.inr (ih.1 hr)
      | some r' =>
        have : ¬ ∃ j ∈ l, f j = none := fun h => by rw [ih.2 h] at hr; cases hr
        simp only [reduceCtorEq, List.mem_cons, exists_eq_or_imp, hf, false_or, false_iff]
        exact this

/-- Mapping a stable sort of decorated jobs. -/
theorem decorated_sort (f : WJob → Option Rat) (g : Rat → Rat) (l : List WJob) (r : List (Rat × WJob))
    (h : evalKeys f l = some r) :
    StableSortOf (fun j => g ((f j).getD 0)) l ((pySort (fun x => g x.1) r).map (·.2)) := by
  obtain ⟨h1, h2⟩ := evalKeys_some f l r h
  obtain ⟨p, s, ff⟩ := sorted_spec (fun x : Rat × WJob => g x.1) r
  have hkey : ∀ x ∈ r, g ((f x.2).getD 0) = g x.1 := fun x hx => by rw [h2 x hx]; rfl
  refine ⟨h1 ▸ p.map _, ?_, ?_⟩
  · rw [List.pairwise_map]
    refine s.imp_of_mem ?_
    intro a b ha hb hab
    have e1 := hkey a (p.mem_iff.1 ha)
    have e2 := hkey b (p.mem_iff.1 hb)
    show g ((f a.2).getD 0) ≤ g ((f b.2).getD 0)
    rw [e1, e2]
    exact hab
  · intro k
    rw [← h1, List.filter_map, List.filter_map]
    congr 1
    rw [← h1] at *
    calc _ = (pySort (fun x : Rat × WJob => g x.1) r).filter (fun x => decide (g x.1 = k)) := by
          apply List.filter_congr
          intro x hx
          simp only [Function.comp, hkey x (p.mem_iff.1 hx)]
      _ = r.filter (fun x => decide (g x.1 = k)) := ff k
      _ = _ := by
          apply List.filter_congr
          intro x hx
          simp only [Function.comp, hkey x hx]

/-- The value by which a policy sorts (increasing). -/
def policyKey (pol : Policy) (cf : KarmaConf) (pc : PrioConf) (t : Table) (queues : List String) (now : Int)
    (j : WJob) : Rat :=
  match pol with
  | .fifo => 0
  | .fairshare => (karma cf t queues now j).getD 0
  | .multifactor => -(((karma cf t queues now j).bind (fun k => priority pc now k j)).getD 0)

/-- C31. Whatever the policy, the order computed is the stable sort of the waiting jobs by the key of the policy:
unchanged for FIFO, by increasing karma for fair-sharing, by decreasing priority for multifactor. -/
theorem sorting_spec (pol : Policy) (cf : KarmaConf) (pc : PrioConf) (t : Table) (queues : List String) (now : Int)
    (jobs out : List WJob) (h : jobsSorting pol cf pc t queues now jobs = some out) :
    StableSortOf (policyKey pol cf pc t queues now) jobs out := by
  cases pol with
  | fifo =>
    simp [jobsSorting] at h
    subst h
    refine ⟨List.Perm.refl _, ?_, fun _ => rfl⟩
    exact List.pairwise_of_forall (fun _ _ => le_refl _)
  | fairshare =>
    simp only [jobsSorting, Option.map_eq_some_iff] at h
    obtain ⟨r, hr, rfl⟩ := h
    exact decorated_sort _ id _ _ hr
  | multifactor =>
    simp only [jobsSorting, Option.map_eq_some_iff] at h
    obtain ⟨r, hr, rfl⟩ := h
    exact decorated_sort _ (fun x => -x) _ _ hr

/-- C31. The jobs considered in a round for a group of queues: sorted by the policy, equal keys by increasing id, and a
prefix of this order if the cap is reached. Without a positive cap all the waiting jobs are considered. -/
theorem considered_jobs (pol : Policy) (cf : KarmaConf) (pc : PrioConf) (c : CapSetting) (t : Table)
    (queues : List String) (now : Int) (jobs out : List WJob)
    (h : consideredJobs pol cf pc c t queues now jobs = some out) :
    ∃ full : List WJob, StableSortOf (policyKey pol cf pc t queues now) (waitingJobs queues jobs) full ∧
      (match c with
        | .value v => if 0 < v then out = full.take v.toNat else out = full
        | _ => out = full) := by
  simp only [consideredJobs, Option.map_eq_some_iff] at h
  obtain ⟨full, hs, rfl⟩ := h
  refine ⟨full, sorting_spec _ _ _ _ _ _ _ _ hs, ?_⟩
  cases c with
  | unset => rfl
  | notAnInteger => rfl
  | value v =>
    dsimp only
    by_cases hv : 0 < v
    · rw [if_pos hv]
      simp only [capJobs, maxJobs, hv, if_true]
      split
      · rfl
      · rw [List.take_of_length_le (by omega)]
    · rw [if_neg hv]
      simp [capJobs, maxJobs, hv]

/-- C31. The cap never lets more jobs than its value be considered, and drops nothing when there are not more. -/
theorem cap_size (v : Int) (l : List WJob) (hv : 0 < v) :
    ((capJobs (.value v) l).length : Int) = min v l.length := by
  simp only [capJobs, maxJobs, hv, if_true]
  split
  · rw [List.length_take]; omega
  · omega

/-- C31. First-come first-served: with the default policy and no cap every waiting job is considered, by id. -/
theorem fifo_considers_all (cf : KarmaConf) (pc : PrioConf) (t : Table) (queues : List String) (now : Int)
    (jobs : List WJob) :
    consideredJobs .fifo cf pc .unset t queues now jobs = some (waitingJobs queues jobs) := rfl

/-! ## What the policies favour -/

theorem karma_some (cf : KarmaConf) (t : Table) (queues : List String) (now : Int) (j : WJob) (k : Rat)
    (h : karma cf t queues now j = some k) :
    ∃ target, projTarget cf j.project = some target ∧
      k = karmaFormula cf (sumProject queues (now - cf.window) now "USED" j.project t)
        (sumUser queues (now - cf.window) now "USED" j.user t) (sumUser queues (now - cf.window) now "ASKED" j.user t)
        (sumWindow queues (now - cf.window) now "USED" t) (sumWindow queues (now - cf.window) now "ASKED" t) target := by
  unfold karma at h
  split at h
  · cases h
  · split at h
    · cases h
    · obtain ⟨target, h1, h2⟩ := Option.map_eq_some_iff.1 h
      exact ⟨target, h1, h2.symm⟩

/-- C60, fair-sharing. Of two waiting jobs of the same project, the one whose user consumed less (used and asked, one of
them strictly with a positive coefficient) over the window is considered first. -/
theorem fairshare_favours_small_consumers (cf : KarmaConf) (pc : PrioConf) (t : Table) (queues : List String) (now : Int)
    (jobs out : List WJob) (hout : jobsSorting .fairshare cf pc t queues now jobs = some out) (a b : WJob) (ha : a ∈ jobs)
    (hb : b ∈ jobs) (hproj : a.project = b.project) (hcu : 0 < cf.coefUser) (hca : 0 ≤ cf.coefAsk)
    (hpu : 0 < sumWindow queues (now - cf.window) now "USED" t)
    (hpa : 0 < sumWindow queues (now - cf.window) now "ASKED" t)
    (hused : sumUser queues (now - cf.window) now "USED" a.user t < sumUser queues (now - cf.window) now "USED" b.user t)
    (hasked : sumUser queues (now - cf.window) now "ASKED" a.user t ≤
      sumUser queues (now - cf.window) now "ASKED" b.user t) :
    Before out a b := by
  have hs := sorting_spec _ _ _ _ _ _ _ _ hout
  have hev : evalKeys (karma cf t queues now) jobs ≠ none := by
    intro h
    simp [jobsSorting, h] at hout
  have hdef : ∀ j ∈ jobs, ∃ k, karma cf t queues now j = some k := by
    intro j hj
    cases hk : karma cf t queues now j with
    | none => exact absurd ((evalKeys_none _ _).2 ⟨j, hj, hk⟩) hev
    | some k => exact ⟨k, rfl⟩
  obtain ⟨ka, hka⟩ := hdef a ha
  obtain ⟨kb, hkb⟩ := hdef b hb
  refine stable_before _ _ _ hs a b ha hb ?_
  show (karma cf t queues now a).getD 0 < (karma cf t queues now b).getD 0
  rw [hka, hkb]
  show ka < kb
  obtain ⟨ta, hta, rfl⟩ := karma_some _ _ _ _ _ _ hka
  obtain ⟨tb, htb, rfl⟩ := karma_some _ _ _ _ _ _ hkb
  rw [hproj] at hta ⊢
  have : ta = tb := by rw [hta] at htb; exact Option.some.inj htb
  subst this
  unfold karmaFormula
  have h1 : sumUser queues (now - cf.window) now "USED" a.user t / sumWindow queues (now - cf.window) now "USED" t <
      sumUser queues (now - cf.window) now "USED" b.user t / sumWindow queues (now - cf.window) now "USED" t :=
    div_lt_div_of_pos_right hused hpu
  have h2 : sumUser queues (now - cf.window) now "ASKED" a.user t / sumWindow queues (now - cf.window) now "ASKED" t ≤
      sumUser queues (now - cf.window) now "ASKED" b.user t / sumWindow queues (now - cf.window) now "ASKED" t :=
    div_le_div_of_nonneg_right hasked (le_of_lt hpa)
  have h3 := mul_lt_mul_of_pos_left h1 hcu
  have h4 := mul_le_mul_of_nonneg_left h2 hca
  linarith


/-- The hypotheses are met: two users, the first consumed 10 of the 100 used, the second 90. The job of the first user
comes first although its id is larger. -/
def wj (id : Nat) (u p : String) (sub : Int) : WJob := ⟨id, "Waiting", "default", "None", u, p, sub⟩

def exTable : Table :=
  [(⟨0, 9, "u1", "p", "default", "USED"⟩, 10), (⟨0, 9, "u2", "p", "default", "USED"⟩, 90),
   (⟨0, 9, "u1", "p", "default", "ASKED"⟩, 20), (⟨0, 9, "u2", "p", "default", "ASKED"⟩, 100)]

def exConf : KarmaConf := ⟨100, [("p", some 75)], [], 0, 2, 1⟩

def exPrio : PrioConf := ⟨1, 1, 0, [], 1, []⟩

/-- The conclusion on the example. -/
theorem fairshare_example :
    jobsSorting .fairshare exConf exPrio exTable ["default"] 50 [wj 1 "u2" "p" 0, wj 2 "u1" "p" 0] =
      some [wj 2 "u1" "p" 0, wj 1 "u2" "p" 0] := by
  decide +kernel

example : sumUser ["default"] (50 - exConf.window) 50 "USED" "u1" exTable <
    sumUser ["default"] (50 - exConf.window) 50 "USED" "u2" exTable ∧
    0 < sumWindow ["default"] (50 - exConf.window) 50 "USED" exTable := by decide +kernel

/-- C60 (violated). A target for a user is unusable: as soon as a user of a waiting job has a target, the fair-sharing
sort raises, whatever the value, and no job of the group is scheduled. -/
theorem user_target_violated (cf : KarmaConf) (pc : PrioConf) (t : Table) (queues : List String) (now : Int)
    (jobs : List WJob) (j : WJob) (hj : j ∈ jobs) (v : String) (hv : cf.userTargets.lookup j.user = some v) :
    jobsSorting .fairshare cf pc t queues now jobs = none := by
  have : evalKeys (karma cf t queues now) jobs = none :=
    (evalKeys_none _ _).2 ⟨j, hj, by simp [karma, hv]⟩
  simp [jobsSorting, this]

example : ({ exConf with userTargets := [("u1", "75")] } : KarmaConf).userTargets.lookup "u1" = some "75" := by decide

/-- C60. The fair-sharing sort of jobs whose users have no target and whose project targets are numbers never fails when
the window holds some consumption (or no row at all). -/
theorem fairshare_total (cf : KarmaConf) (pc : PrioConf) (t : Table) (queues : List String) (now : Int)
    (jobs : List WJob) (hu : ∀ j ∈ jobs, cf.userTargets.lookup j.user = none)
    (hp : ∀ j ∈ jobs, projTarget cf j.project ≠ none)
    (h1 : sumWindow queues (now - cf.window) now "USED" t ≠ 0)
    (h2 : sumWindow queues (now - cf.window) now "ASKED" t ≠ 0) :
    ∃ out, jobsSorting .fairshare cf pc t queues now jobs = some out := by
  cases h : evalKeys (karma cf t queues now) jobs with
  | none =>
    obtain ⟨j, hj, hk⟩ := (evalKeys_none _ _).1 h
    unfold karma at hk
    rw [if_neg (by simp [hu j hj]), if_neg (by simp [h1, h2])] at hk
    exact absurd (Option.map_eq_none_iff.1 hk) (hp j hj)
  | some r => exact ⟨_, by show Option.map _ (evalKeys _ _) = _; rw [h]; rfl⟩

theorem priority_some (pc : PrioConf) (now : Int) (k : Rat) (j : WJob) (x : Rat) (h : priority pc now k j = some x) :
    x = pc.ageWeight * max 1 (pc.ageCoef * ((now - j.submission : Int) : Rat)) +
      (if 0 < pc.queueWeight then (match pc.queueCoefs.lookup j.queue with
        | some c => pc.queueWeight * c
        | none => 0) else 0) + pc.karmaWeight * (1 / (1 + k)) := by
  unfold priority at h
  split at h
  · cases h
  · split at h
    · cases h
    · exact (Option.some.inj h).symm

/-- C60, multifactor. Of two waiting jobs of the same user, project and queue, the one submitted earlier is considered
first if it also comes first in the order of the ids. -/
theorem multifactor_favours_older (cf : KarmaConf) (pc : PrioConf) (t : Table) (queues : List String) (now : Int)
    (jobs out : List WJob) (hout : jobsSorting .multifactor cf pc t queues now jobs = some out) (a b : WJob)
    (hab : Before jobs a b) (hu : a.user = b.user) (hproj : a.project = b.project) (hq : a.queue = b.queue)
    (hw : 0 ≤ pc.ageWeight) (hc : 0 ≤ pc.ageCoef) (hsub : a.submission ≤ b.submission) :
    Before out a b := by
  have hs := sorting_spec _ _ _ _ _ _ _ _ hout
  have ha : a ∈ jobs := by obtain ⟨x, y, z, e⟩ := hab; rw [e]; simp
  have hb : b ∈ jobs := by obtain ⟨x, y, z, e⟩ := hab; rw [e]; simp
  have hdef : ∀ j ∈ jobs, ∃ k x, karma cf t queues now j = some k ∧ priority pc now k j = some x := by
    intro j hj
    cases hk : (karma cf t queues now j).bind (fun k => priority pc now k j) with
    | none =>
      have := (evalKeys_none (fun j => (karma cf t queues now j).bind (fun k => priority pc now k j)) jobs).2 ⟨j, hj, hk⟩
      simp [jobsSorting, this] at hout
    | some x =>
      obtain ⟨k, h1, h2⟩ := Option.bind_eq_some_iff.1 hk
      exact ⟨k, x, h1, h2⟩
  obtain ⟨ka, xa, hka, hxa⟩ := hdef a ha
  obtain ⟨kb, xb, hkb, hxb⟩ := hdef b hb
  have hkk : karma cf t queues now a = karma cf t queues now b := by
    unfold karma; rw [hu, hproj]
  have : ka = kb := by rw [hkk, hkb] at hka; exact (Option.some.inj hka).symm
  subst this
  refine stable_before_eq _ _ _ hs a b hab ?_
  show -((karma cf t queues now a).bind _).getD 0 ≤ -((karma cf t queues now b).bind _).getD 0
  rw [hka, hkb]
  show -(priority pc now ka a).getD 0 ≤ -(priority pc now ka b).getD 0
  rw [hxa, hxb]
  show -xa ≤ -xb
  rw [priority_some _ _ _ _ _ hxa, priority_some _ _ _ _ _ hxb, hq]
  have h1 : ((now - b.submission : Int) : Rat) ≤ ((now - a.submission : Int) : Rat) := by
    exact_mod_cast (by omega : now - b.submission ≤ now - a.submission)
  have h2 := mul_le_mul_of_nonneg_left h1 hc
  have h3 := mul_le_mul_of_nonneg_left (max_le_max (le_refl (1 : Rat)) h2) hw
  linarith

theorem multifactor_example :
    jobsSorting .multifactor exConf exPrio exTable ["default"] 50 [wj 1 "u2" "p" 40, wj 2 "u2" "p" 45, wj 3 "u1" "p" 0] =
      some [wj 3 "u1" "p" 0, wj 1 "u2" "p" 40, wj 2 "u2" "p" 45] := by
  decide +kernel

/-- C60, multifactor. As long as the karma of both is above -1, of two jobs of the same queue and age the one with the
smaller karma has the larger priority. -/
theorem multifactor_favours_small_karma_partial (pc : PrioConf) (now : Int) (ka kb xa xb : Rat) (a b : WJob)
    (hq : a.queue = b.queue) (hsub : a.submission = b.submission) (hw : 0 < pc.karmaWeight) (h1 : -1 < ka) (h2 : ka < kb)
    (hxa : priority pc now ka a = some xa) (hxb : priority pc now kb b = some xb) : xb < xa := by
  rw [priority_some _ _ _ _ _ hxa, priority_some _ _ _ _ _ hxb, hq, hsub]
  have h3 : (0 : Rat) < 1 + ka := by linarith
  have h4 : 1 / (1 + kb) < 1 / (1 + ka) := one_div_lt_one_div_of_lt h3 (by linarith)
  have h5 := mul_lt_mul_of_pos_left h4 hw
  linarith

example : priority exPrio 50 1 (wj 1 "u" "p" 40) = some (10 + 1 / 2) ∧
    priority exPrio 50 2 (wj 1 "u" "p" 40) = some (10 + 1 / 3) := by decide +kernel

/-- C60 (violated). A project far below its target has a karma below -1 and is put *last*: project `p` has a target of
75 percent and used nothing, project `q` has no target and used everything, the job of `q` is considered first. -/
theorem multifactor_favours_small_karma_violated :
    ∃ (cf : KarmaConf) (pc : PrioConf) (t : Table) (a b : WJob) (ka kb : Rat), 0 < pc.karmaWeight ∧
      karma cf t ["default"] 50 a = some ka ∧ karma cf t ["default"] 50 b = some kb ∧ ka < kb ∧
      jobsSorting .fairshare cf pc t ["default"] 50 [a, b] = some [a, b] ∧
      jobsSorting .multifactor cf pc t ["default"] 50 [a, b] = some [b, a] := by
  refine ⟨⟨100, [("p", some 75)], [], 5, 0, 0⟩, ⟨1, 1, 0, [], 1, []⟩,
    [(⟨0, 9, "v", "q", "default", "USED"⟩, 100)], wj 1 "u" "p" 0, wj 2 "v" "q" 0, -15/4, 5, ?_⟩
  decide +kernel

/-- C60 (violated). The age does not count during the first seconds: with the default coefficient two jobs submitted six
days apart have the same age factor. -/
theorem age_factor_flat (pc : PrioConf) (now : Int) (k : Rat) (a b : WJob) (hq : a.queue = b.queue)
    (ha : pc.ageCoef * ((now - a.submission : Int) : Rat) ≤ 1) (hb : pc.ageCoef * ((now - b.submission : Int) : Rat) ≤ 1) :
    priority pc now k a = priority pc now k b := by
  unfold priority
  rw [hq, max_eq_left ha, max_eq_left hb]

example : (165 / 100000000 : Rat) * ((600000 - 0 : Int) : Rat) ≤ 1 := by norm_num

/-! ## C61: reading the targets -/

/-- A character which may appear in a name or a number of the targets. -/
def plain (c : Char) : Bool :=
  !(c = '{' || c = '}' || c = ' ' || c = '\t' || c = '\n' || c = '\r' || c = '\x0b' || c = '\x0c' || c = ',' || c = '=')

/-- The way targets are written in the configuration file: `{ a => 75, b => 25 }`. -/
def renderItem (kv : List Char × List Char) : List Char := ' ' :: kv.1 ++ [' ', '=', '>', ' '] ++ kv.2

def renderItems : List (List Char × List Char) → List Char
  | [] => []
  | [kv] => renderItem kv
  | kv :: l => renderItem kv ++ ',' :: renderItems l

def renderHash (l : List (List Char × List Char)) : List Char := '{' :: renderItems l ++ [' ', '}']

theorem stripHash_append (a b : List Char) : stripHash (a ++ b) = stripHash a ++ stripHash b := List.filter_append ..

theorem stripHash_plain (a : List Char) (h : ∀ c ∈ a, plain c = true) : stripHash a = a := by
  apply List.filter_eq_self.2
  intro c hc
  have := h c hc
  simp only [plain, Bool.not_eq_true', Bool.or_eq_false_iff] at this ⊢
  simp [this]

theorem splitComma_plain (a : List Char) (h : ∀ c ∈ a, c ≠ ',') : splitComma a = [a] := by
  induction a with
  | nil => rfl
  | cons c a ih =>
    unfold splitComma
    rw [if_neg (h c (by simp)), ih (fun c hc => h c (List.mem_cons_of_mem _ hc))]

theorem splitComma_append (a b : List Char) (h : ∀ c ∈ a, c ≠ ',') :
    splitComma (a ++ ',' :: b) = a :: splitComma b := by
  induction a with
  | nil => simp [splitComma]
  | cons c a ih =>
    rw [List.cons_append]
    rw [splitComma.eq_def]
    simp only
    rw [if_neg (h c (by simp)), ih (fun c hc => h c (List.mem_cons_of_mem _ hc))]

theorem splitArrow_plain (a : List Char) (h : ∀ c ∈ a, c ≠ '=') : splitArrow a = [a] := by
  induction a with
  | nil => rfl
  | cons c a ih =>
    have := h c (by simp)
    rw [splitArrow.eq_def]
    split
    · rename_i heq; cases heq
    · rename_i heq; cases heq; exact absurd rfl this
    · rename_i heq
      cases heq
      rw [ih (fun c hc => h c (List.mem_cons_of_mem _ hc))]

theorem splitArrow_append (a b : List Char) (h : ∀ c ∈ a, c ≠ '=') :
    splitArrow (a ++ '=' :: '>' :: b) = a :: splitArrow b := by
  induction a with
  | nil => simp [splitArrow]
  | cons c a ih =>
    have := h c (by simp)
    rw [List.cons_append, splitArrow.eq_def]
    split
    · rename_i heq; cases heq
    · rename_i heq; exact absurd (List.cons.inj heq).1 this
    · rename_i heq
      cases heq
      rw [ih (fun c hc => h c (List.mem_cons_of_mem _ hc))]

theorem plain_ne (c : Char) (h : plain c = true) : c ≠ ',' ∧ c ≠ '=' := by
  simp only [plain, Bool.not_eq_true', Bool.or_eq_false_iff, decide_eq_false_iff_not] at h
  exact ⟨h.1.2, h.2⟩

/-- What is left of an item once white space is removed. -/
def packed (kv : List Char × List Char) : List Char := kv.1 ++ '=' :: '>' :: kv.2

theorem strip_item (kv : List Char × List Char) (h1 : ∀ c ∈ kv.1, plain c = true) (h2 : ∀ c ∈ kv.2, plain c = true) :
    stripHash (renderItem kv) = packed kv := by
  unfold renderItem packed
  rw [stripHash_append, stripHash_append, stripHash_plain kv.2 h2,
    show (' ' :: kv.1) = [' '] ++ kv.1 from rfl, stripHash_append, stripHash_plain kv.1 h1]
  have e1 : stripHash [' '] = [] := by decide
  have e2 : stripHash [' ', '=', '>', ' '] = ['=', '>'] := by decide
  rw [e1, e2]
  simp

theorem packed_no_comma (kv : List Char × List Char) (h1 : ∀ c ∈ kv.1, plain c = true)
    (h2 : ∀ c ∈ kv.2, plain c = true) : ∀ c ∈ packed kv, c ≠ ',' := by
  intro c hc
  unfold packed at hc
  rcases List.mem_append.1 hc with h | h
  · exact (plain_ne c (h1 c h)).1
  · rcases List.mem_cons.1 h with rfl | h
    · decide
    · rcases List.mem_cons.1 h with rfl | h
      · decide
      · exact (plain_ne c (h2 c h)).1

theorem hashPairs_items (l : List (List Char × List Char)) (hne : l ≠ [])
    (h : ∀ kv ∈ l, (∀ c ∈ kv.1, plain c = true) ∧ ∀ c ∈ kv.2, plain c = true) :
    hashPairs (splitComma (stripHash (renderItems l))) = some l := by
  induction l with
  | nil => exact absurd rfl hne
  | cons kv l ih =>
    obtain ⟨h1, h2⟩ := h kv (by simp)
    have hsa : splitArrow (packed kv) = [kv.1, kv.2] := by
      unfold packed
      rw [splitArrow_append _ _ (fun c hc => (plain_ne c (h1 c hc)).2),
        splitArrow_plain _ (fun c hc => (plain_ne c (h2 c hc)).2)]
    cases l with
    | nil =>
      show hashPairs (splitComma (stripHash (renderItem kv))) = _
      rw [strip_item kv h1 h2, splitComma_plain _ (packed_no_comma kv h1 h2)]
      simp [hashPairs, hsa]
    | cons kv2 l =>
      show hashPairs (splitComma (stripHash (renderItem kv ++ ',' :: renderItems (kv2 :: l)))) = _
      rw [stripHash_append, strip_item kv h1 h2,
        show (',' :: renderItems (kv2 :: l)) = [','] ++ renderItems (kv2 :: l) from rfl, stripHash_append,
        show stripHash [','] = [','] by decide]
      rw [show packed kv ++ ([','] ++ stripHash (renderItems (kv2 :: l))) =
        packed kv ++ ',' :: stripHash (renderItems (kv2 :: l)) from rfl, splitComma_append _ _ (packed_no_comma kv h1 h2)]
      rw [hashPairs, hsa, ih (by simp) (fun x hx => h x (List.mem_cons_of_mem _ hx))]

/-- C61. Targets written in the configuration file, in the documented form, with at least one item and names and values
without white space, braces, comma or equal sign, are read back exactly. -/
theorem targets_read_back (l : List (List Char × List Char)) (hne : l ≠ [])
    (h : ∀ kv ∈ l, (∀ c ∈ kv.1, plain c = true) ∧ ∀ c ∈ kv.2, plain c = true) :
    perlHash2Dict (renderHash l) = some l := by
  unfold perlHash2Dict renderHash
  have e : stripHash ('{' :: renderItems l ++ [' ', '}']) = stripHash (renderItems l) := by
    rw [stripHash_append, show ('{' :: renderItems l) = ['{'] ++ renderItems l from rfl, stripHash_append]
    have e1 : stripHash ['{'] = [] := by decide
    have e2 : stripHash [' ', '}'] = [] := by decide
    rw [e1, e2]; simp
  rw [e]
  exact hashPairs_items l hne h

example : renderHash [(['f', '1'], ['7', '5']), (['d'], ['2', '.', '5'])] =
    "{ f1 => 75, d => 2.5 }".toList := by decide

/-- C61 (violated for the empty hash): no target at all cannot be written, the documented `{}` makes the reading raise,
and a trailing comma too. -/
theorem targets_read_back_violated :
    perlHash2Dict (renderHash []) = none ∧ perlHash2Dict "{a=>1,}".toList = none := by decide

end Oar.Queues
