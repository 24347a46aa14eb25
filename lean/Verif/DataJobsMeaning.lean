import Verif.DataJobsProps
import Verif.SqlText
import Mathlib.Data.List.Perm.Basic

/-!
# C64: the order of the tables does not matter; what the constraints of a group mean
-/

namespace Oar.Submission

open Oar.Tools

/-! ## The database returns the rows of a table in any order -/

/-- The same tables, with their rows in another order. -/
structure SameTables (db db' : DB) : Prop where
  jobs : db.jobs.Perm db'.jobs
  molds : db.molds.Perm db'.molds
  groups : db.groups.Perm db'.groups
  descs : db.descs.Perm db'.descs

theorem insertBy_perm {α : Type} (k : α → Nat) (a : α) (l : List α) : (insertBy k a l).Perm (a :: l) := by
  induction l with
  | nil => exact .refl _
  | cons b l ih =>
    rw [insertBy]
    split
    · exact .refl _
    · exact (ih.cons b).trans (.swap a b l)

theorem sortBy_perm {α : Type} (k : α → Nat) (l : List α) : (sortBy k l).Perm l := by
  induction l with
  | nil => exact .refl _
  | cons a l ih => exact (insertBy_perm k a _).trans (ih.cons a)

theorem insertBy_sorted {α : Type} (k : α → Nat) (a : α) (l : List α) (h : l.Pairwise (fun x y => k x ≤ k y)) :
    (insertBy k a l).Pairwise (fun x y => k x ≤ k y) := by
  induction l with
  | nil => simp [insertBy]
  | cons b l ih =>
    rw [insertBy]
    rw [List.pairwise_cons] at h
    split
    · rename_i hab
      refine List.pairwise_cons.2 ⟨?_, List.pairwise_cons.2 h⟩
      intro x hx
      rcases List.mem_cons.1 hx with e | e
      · rw [e]; exact hab
      · exact Nat.le_trans hab (h.1 x e)
    · rename_i hab
      refine List.pairwise_cons.2 ⟨?_, ih h.2⟩
      intro x hx
      rcases List.mem_cons.1 ((insertBy_perm k a l).subset hx) with e | e
      · rw [e]; omega
      · exact h.1 x e

theorem sortBy_sorted {α : Type} (k : α → Nat) (l : List α) : (sortBy k l).Pairwise (fun x y => k x ≤ k y) := by
  induction l with
  | nil => exact .nil
  | cons a l ih => exact insertBy_sorted k a _ ih

/-- Two increasing lists with the same elements are equal. -/
theorem eq_of_sorted {α : Type} (k : α → Nat) : ∀ (l l' : List α), l.Perm l' → l.Pairwise (fun x y => k x < k y) →
    l'.Pairwise (fun x y => k x < k y) → l = l'
  | [], l', h, _, _ => (List.nil_perm.1 h).symm
  | a :: l, [], h, _, _ => absurd h.length_eq (by simp)
  | a :: l, b :: l', h, h1, h2 => by
    rw [List.pairwise_cons] at h1 h2
    have hab : a = b := by
      rcases List.mem_cons.1 (h.subset (List.mem_cons_self ..)) with e | e
      · exact e
      · rcases List.mem_cons.1 (h.symm.subset (List.mem_cons_self ..)) with e' | e'
        · exact e'.symm
        · have := h1.1 b e'
          have := h2.1 a e
          omega
    subst hab
    rw [eq_of_sorted k l l' ((List.perm_cons a).1 h) h1.2 h2.2]

theorem sortBy_strict {α : Type} (k : α → Nat) (l : List α) (h : (l.map k).Nodup) : (sortBy k l).Pairwise (fun x y => k x < k y) := by
  have hn : ((sortBy k l).map k).Nodup := (((sortBy_perm k l).map k).nodup_iff).2 h
  rw [List.Nodup, List.pairwise_map] at hn
  exact ((sortBy_sorted k l).and hn).imp fun {x y} hxy => by omega

/-- Sorting by a key without duplicates gives the same list for all the orders. -/
theorem sortBy_eq {α : Type} (k : α → Nat) (l l' : List α) (hp : l.Perm l') (h : (l.map k).Nodup) : sortBy k l = sortBy k l' :=
  eq_of_sorted k _ _ ((sortBy_perm k l).trans (hp.trans (sortBy_perm k l').symm)) (sortBy_strict k l h)
    (sortBy_strict k l' (((hp.map k).nodup_iff).1 h))

theorem filter_key_eq {α : Type} (k : α → Nat) (n : Nat) (q : α → Bool) (l l' : List α) (hp : l.Perm l') (h : (l.map k).Nodup) :
    l.filter (fun x => k x = n && q x) = l'.filter (fun x => k x = n && q x) := by
  have hf := hp.filter (fun x => k x = n && q x)
  have hlen : ∀ m : List α, (m.map k).Nodup → (∀ x ∈ m, k x = n) → m.length ≤ 1 := by
    intro m hm hk
    match m with
    | [] => simp
    | [_] => simp
    | a :: b :: m =>
      rw [List.map_cons, List.map_cons, List.nodup_cons] at hm
      exact absurd (by rw [hk a (by simp), hk b (by simp)]; simp) hm.1
  have h1 : (l.filter (fun x => k x = n && q x)).length ≤ 1 := by
    apply hlen
    · exact h.sublist ((List.filter_sublist).map k)
    · intro x hx
      have := (List.mem_filter.1 hx).2
      simp only [Bool.and_eq_true, decide_eq_true_eq] at this
      exact this.1
  generalize l.filter (fun x => k x = n && q x) = m at *
  generalize l'.filter (fun x => k x = n && q x) = m' at *
  match m, h1 with
  | [], _ => exact (List.nil_perm.1 hf).symm
  | [a], _ => exact List.singleton_perm.1 hf

/-- The rows read do not depend on the order in which the database keeps the tables: the identifiers and, in each group, the
orders of the levels are distinct (which all the submissions ensure, see `submit_keeps`). -/
theorem query_order_free (db db' : DB) (h : Ordered db) (hs : SameTables db db') (jids : List Nat) : query db' jids = query db jids := by
  have hm : sortBy (fun a : SMold => a.id) db.molds = sortBy (fun a : SMold => a.id) db'.molds :=
    sortBy_eq _ _ _ hs.molds (molds_nodup _ (h.molds.imp fun {a b} hab => hab.1))
  have hg : ∀ mid, sortBy (fun a : SGrp => a.id) (db.groups.filter (fun g => g.mold = mid)) =
      sortBy (fun a : SGrp => a.id) (db'.groups.filter (fun g => g.mold = mid)) := fun mid =>
    sortBy_eq _ _ _ (hs.groups.filter _) (groups_nodup _ (h.groups.filter _))
  have hd : ∀ gid, sortBy (fun a : SDesc => a.order) (db.descs.filter (fun d => d.group = gid)) =
      sortBy (fun a : SDesc => a.order) (db'.descs.filter (fun d => d.group = gid)) := by
    intro gid
    refine sortBy_eq _ _ _ (hs.descs.filter _) (sublist_nodup_of_lt (fun d : SDesc => d.order) _ ?_)
    rw [List.pairwise_filter]
    refine h.descs.imp fun {a b} hab ha hb => ?_
    simp only [decide_eq_true_eq] at ha hb
    exact hab (by rw [ha, hb])
  have hj : ∀ m : SMold, db.jobs.filter (fun j => j.id = m.job && jids.contains j.id) =
      db'.jobs.filter (fun j => j.id = m.job && jids.contains j.id) := fun m =>
    filter_key_eq (fun j : SJob => j.id) m.job (fun j => jids.contains j.id) _ _ hs.jobs (jobs_nodup _ h.jobs)
  unfold query
  rw [← hm]
  simp only [hj, hg, hd]

/-- What is read for the scheduler does not depend on it either. -/
theorem data_order_free (sec be : Int) (db db' : DB) (h : Ordered db) (hs : SameTables db db') (jids : List Nat) :
    getDataJobs sec be db' jids = getDataJobs sec be db jids := by
  unfold getDataJobs
  rw [query_order_free db db' h hs]

/-! ## The constraints -/

open Oar.Sql

/-- The resources that the constraints of a group select; `dflt` tells that the resource is of type default, `val` gives the values of the
elementary conditions for the resource. -/
def Selected (dflt : Prop) (val : List Tok → Bool) : Option (List Char) → Prop
  | none => dflt
  | some q => Holds val q

instance (dflt : Prop) [Decidable dflt] (val : List Tok → Bool) : ∀ q, Decidable (Selected dflt val q)
  | none => inferInstanceAs (Decidable dflt)
  | some q => inferInstanceAs (Decidable (Holds val q))

/-- A group gets the resources that satisfy the properties of the job and those of the group (the default ones when there are
none), provided that the properties of the job are well-formed and that the two texts have no OR outside parentheses. -/
theorem constraints_both (props gprop : List Char) (h0 : Closed props) (h1 : NoOr props) (h2 : NoOr gprop) (dflt : Prop) (val : List Tok → Bool)
    (hd : Holds val (txt "type = 'default'") ↔ dflt) :
    Selected dflt val (constraints props gprop) ↔
      (props = [] ∧ gprop = [] ∧ dflt) ∨
      ((props ≠ [] ∨ gprop ≠ []) ∧ (props ≠ [] → Holds val props) ∧ (gprop ≠ [] → Holds val gprop)) := by
  unfold constraints
  by_cases hp : props = []
  · subst hp
    by_cases hg : gprop = []
    · simp [hg, Selected]
    · by_cases he : gprop = txt "type = 'default'"
      · rw [if_pos ⟨rfl, Or.inr he⟩]
        have hne : gprop ≠ [] := hg
        rw [he] at hne
        simp [Selected, he, hd, hne]
      · rw [if_neg (by simp [hg, he])]
        simp [Selected, hg]
  · rw [if_neg (by simp [hp])]
    by_cases hg : gprop = []
    · simp [hg, hp, Selected]
    · rw [if_pos ⟨hp, hg⟩]
      show Holds val (props ++ txt " AND " ++ gprop) ↔ _
      rw [holds_and val props gprop h0 h1 h2]
      simp [hp, hg]

/-- The hypotheses are met by ordinary properties, and resources are selected and refused. -/
example : Closed (txt "(cluster = 'a' or cluster = 'b') AND besteffort='YES'") ∧ NoOr (txt "(cluster = 'a' or cluster = 'b') AND besteffort='YES'") ∧
    NoOr (txt "type = 'default'") ∧
    Selected True (fun q => q ≠ lex (txt "cluster = 'a'")) (constraints (txt "(cluster = 'a' or cluster = 'b') AND besteffort='YES'") (txt "type = 'default'")) ∧
    ¬ Selected True (fun q => q ≠ lex (txt "besteffort='YES'")) (constraints (txt "(cluster = 'a' or cluster = 'b') AND besteffort='YES'") (txt "type = 'default'")) := by
  simp only [txt, String.reduceToList]
  decide +kernel

/-- One would expect that the constraints select the resources that satisfy both the properties of the job and those of the group. The two
texts are joined by AND without parentheses: with the properties "cluster = 'a' OR cluster = 'b'" and the group "type = 'default'", a resource
of the cluster a which is not of type default is selected. -/
theorem constraints_or_violated : ∃ (props gprop : List Char) (val : List Tok → Bool), Closed props ∧ Closed gprop ∧
    ¬ Holds val gprop ∧ Selected (Holds val gprop) val (constraints props gprop) := by
  refine ⟨txt "cluster = 'a' OR cluster = 'b'", txt "type = 'default'", fun q => q = lex (txt "cluster = 'a'"), ?_⟩
  simp only [txt, String.reduceToList]
  decide +kernel

end Oar.Submission
