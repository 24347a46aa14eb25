import Verif.DetailsSpec

/-!
# Properties of what the API tells about jobs
-/

namespace Oar.Details

open Oar.Tools

/-! ## The rows of a job -/

theorem own_none {α : Type} (g : Job → List α) (i : Nat) : ∀ l : List Job, i ∉ l.map Job.id →
    ((l.flatMap (fun j => (g j).map (fun x => (j.id, x)))).filter (fun r => r.1 == i)).map Prod.snd = []
  | [], _ => rfl
  | j :: l, h => by
    simp only [List.map_cons, List.mem_cons, not_or] at h
    rw [List.flatMap_cons, List.filter_append, List.map_append, own_none g i l h.2, List.append_nil, List.filter_map]
    have : (g j).filter ((fun r : Nat × α => r.1 == i) ∘ fun x => (j.id, x)) = [] := by
      rw [List.filter_eq_nil_iff]
      intro a _
      simp [Ne.symm h.1]
    rw [this]
    rfl

theorem own_rows {α : Type} (g : Job → List α) (j : Job) : ∀ l : List Job, (l.map Job.id).Nodup → j ∈ l →
    ((l.flatMap (fun j => (g j).map (fun x => (j.id, x)))).filter (fun r => r.1 == j.id)).map Prod.snd = g j
  | [], _, h => by simp at h
  | k :: l, hn, h => by
    rw [List.map_cons, List.nodup_cons] at hn
    rw [List.flatMap_cons, List.filter_append, List.map_append, List.filter_map]
    rcases List.mem_cons.1 h with rfl | h
    · rw [own_none g _ l hn.1, List.append_nil]
      have : (g j).filter ((fun r : Nat × α => r.1 == j.id) ∘ fun x => (j.id, x)) = g j := by
        rw [List.filter_eq_self]
        intro a _
        simp
      rw [this, List.map_map]
      exact List.map_id _
    · rw [own_rows g j l hn.2 h]
      have hne : k.id ≠ j.id := fun e => hn.1 (e ▸ List.mem_map_of_mem h)
      have : (g k).filter ((fun r : Nat × α => r.1 == j.id) ∘ fun x => (k.id, x)) = [] := by
        rw [List.filter_eq_nil_iff]
        intro a _
        simp [hne]
      rw [this]
      rfl

variable {db : Db} {page : List Nat} {j : Job}

theorem among_nodup (h : db.Ok) : ((db.among page).map Job.id).Nodup := (List.filter_sublist.map _).nodup h.jobs

theorem mem_among (hj : j ∈ db.jobs) (hp : j.id ∈ page) : j ∈ db.among page := List.mem_filter.2 ⟨hj, by simpa using hp⟩

/-- The resources of a job, as rows. -/
def resOf (db : Db) (j : Job) : List Res := (db.assigned.filter (fun a => j.mold == some a.1)).flatMap (fun a => db.resources.filter (fun r => r.id == a.2))

theorem resourceRows_eq : resourceRows db page = (db.among page).flatMap (fun j => (resOf db j).map (fun x => (j.id, x))) := by
  unfold resourceRows resOf
  simp only [List.map_flatMap]

theorem walltimeRows_eq : walltimeRows db page = (db.among page).flatMap (fun j => ((db.molds.filter (fun m => j.mold == some m.1)).map Prod.snd).map (fun x => (j.id, x))) := by
  unfold walltimeRows
  simp only [List.map_map]
  rfl

theorem rows_mem {α : Type} {g : Job → List α} {r : Nat × α} (h : r ∈ (db.among page).flatMap (fun j => (g j).map (fun x => (j.id, x)))) : r.1 ∈ page := by
  obtain ⟨k, hk, hr⟩ := List.mem_flatMap.1 h
  obtain ⟨x, _, rfl⟩ := List.mem_map.1 hr
  simpa using (List.mem_filter.1 hk).2

theorem groupRows_eq {α : Type} (page : List Nat) : ∀ (rows : List (Nat × α)) (d : Nat → Option (List α)), (∀ r ∈ rows, (d r.1).isSome) →
    groupRows page rows (some d) = some (fun i => (d i).map (fun l => l ++ (rows.filter (fun r => r.1 == i)).map Prod.snd))
  | [], d, _ => by
    show some d = _
    congr 1
    funext i
    cases h : d i <;> simp
  | r :: rows, d, h => by
    obtain ⟨l, hl⟩ := Option.isSome_iff_exists.1 (h r List.mem_cons_self)
    show groupRows page rows ((d r.1).map (fun l => fun i => if i = r.1 then some (l ++ [r.2]) else d i)) = _
    rw [hl]
    show groupRows page rows (some (fun i => if i = r.1 then some (l ++ [r.2]) else d i)) = _
    rw [groupRows_eq page rows]
    · congr 1
      funext i
      by_cases e : i = r.1
      · subst e
        rw [if_pos rfl, hl, List.filter_cons, if_pos (by simp)]
        simp
      · rw [if_neg e, List.filter_cons, if_neg (by simpa using fun h => e h.symm)]
    · intro x hx
      by_cases e : x.1 = r.1
      · simp [e]
      · simpa [e] using h x (List.mem_cons_of_mem _ hx)

theorem groups_eq {α : Type} (rows : List (Nat × α)) (h : ∀ r ∈ rows, r.1 ∈ page) :
    groupRows page rows (some (emptyGroups page)) = some (fun i => if i ∈ page then some ((rows.filter (fun r => r.1 == i)).map Prod.snd) else none) := by
  rw [groupRows_eq page rows _ (fun r hr => by simp [emptyGroups, h r hr])]
  congr 1
  funext i
  unfold emptyGroups
  split <;> simp

theorem lastOf_eq {α : Type} : ∀ (rows : List (Nat × α)) (d : Nat → Option α) (i : Nat), lastOf rows d i = (((rows.filter (fun r => r.1 == i)).map Prod.snd).getLast?).or (d i)
  | [], d, i => by simp [lastOf]
  | r :: rows, d, i => by
    show lastOf rows (fun i => if i = r.1 then some r.2 else d i) i = _
    rw [lastOf_eq rows, List.filter_cons]
    by_cases e : i = r.1
    · rw [if_pos e, if_pos (by simp [e]), List.map_cons, List.getLast?_cons]
      cases h : ((rows.filter (fun r => r.1 == i)).map Prod.snd).getLast? <;> simp
    · rw [if_neg e, if_neg (by simpa using fun h => e h.symm)]

theorem runs_ne {α : Type} : ∀ (rows : List (Nat × α)), ∀ g ∈ runs rows, g.2 ≠ [] ∧ ∃ r ∈ rows, r.1 = g.1
  | [], g, h => by simp [runs] at h
  | r :: rows, g, h => by
    have ih := runs_ne rows
    unfold runs at h
    split at h
    · simp only [List.mem_singleton] at h
      subst h
      exact ⟨by simp, r, List.mem_cons_self, rfl⟩
    · rename_i g' gs e
      rw [e] at ih
      split at h
      · rcases List.mem_cons.1 h with rfl | h
        · exact ⟨by simp, r, List.mem_cons_self, rfl⟩
        · obtain ⟨h1, x, hx, e'⟩ := ih g (List.mem_cons_of_mem _ h)
          exact ⟨h1, x, List.mem_cons_of_mem _ hx, e'⟩
      · rcases List.mem_cons.1 h with rfl | h
        · exact ⟨by simp, r, List.mem_cons_self, rfl⟩
        · obtain ⟨h1, x, hx, e'⟩ := ih g h
          exact ⟨h1, x, List.mem_cons_of_mem _ hx, e'⟩

/-- On sorted rows there is one run for each job. -/
theorem runs_sorted {α : Type} (i : Nat) : ∀ (rows : List (Nat × α)), rows.Pairwise (fun a b => a.1 ≤ b.1) →
    (runs rows).filter (fun g => g.1 == i) = if rows.filter (fun r => r.1 == i) = [] then [] else [(i, (rows.filter (fun r => r.1 == i)).map Prod.snd)]
  | [], _ => by simp [runs]
  | r :: rows, h => by
    rw [List.pairwise_cons] at h
    have ih := runs_sorted i rows h.2
    have hm := runs_ne rows
    unfold runs
    split
    · rename_i e
      have hr : rows = [] := by
        cases rows with
        | nil => rfl
        | cons a b =>
          unfold runs at e
          split at e
          · simp at e
          · split at e <;> simp at e
      subst hr
      by_cases e : r.1 = i
      · simp [e]
      · simp [e]
    · rename_i g gs e
      rw [e] at ih hm
      by_cases hi : r.1 = i
      · have hfc : (r :: rows).filter (fun r => r.1 == i) = r :: rows.filter (fun r => r.1 == i) := by rw [List.filter_cons, if_pos (by simp [hi])]
        by_cases hg : r.1 = g.1
        · rw [if_pos hg, List.filter_cons, if_pos (by simp [hi]), hfc]
          rw [List.filter_cons, if_pos (by simp [← hg, hi])] at ih
          by_cases hf : rows.filter (fun r => r.1 == i) = []
          · rw [if_pos hf] at ih
            simp at ih
          · rw [if_neg hf] at ih
            injection ih with a b
            rw [b, if_neg (by simp), a]
            simp [hi]
        · rw [if_neg hg, List.filter_cons, if_pos (by simp [hi]), hfc]
          have hf : rows.filter (fun r => r.1 == i) = [] := by
            rw [List.filter_eq_nil_iff]
            intro x hx hxi
            have hxi : x.1 = i := by simpa using hxi
            -- the first run is the one of the first row
            cases rows with
            | nil => simp at hx
            | cons y ys =>
              have hy : y.1 = g.1 := by
                unfold runs at e
                split at e
                · simp only [List.cons.injEq] at e
                  rw [← e.1]
                · split at e
                  · simp only [List.cons.injEq] at e
                    rw [← e.1]
                  · simp only [List.cons.injEq] at e
                    rw [← e.1]
              have h1 := h.1 y List.mem_cons_self
              have h2 : y.1 ≤ x.1 := by
                rcases List.mem_cons.1 hx with rfl | hx
                · exact Nat.le_refl _
                · exact (List.pairwise_cons.1 h.2).1 x hx
              omega
          rw [if_pos hf] at ih
          rw [ih, hf, if_neg (by simp)]
          simp [hi]
      · have hfc : (r :: rows).filter (fun r => r.1 == i) = rows.filter (fun r => r.1 == i) := by rw [List.filter_cons, if_neg (by simpa using hi)]
        rw [hfc, ← ih]
        by_cases hg : r.1 = g.1
        · rw [if_pos hg, List.filter_cons, if_neg (by simpa using hi), List.filter_cons, if_neg (by simpa using fun h : g.1 = i => hi (hg.trans h))]
        · rw [if_neg hg, List.filter_cons, if_neg (by simpa using hi)]

theorem distinct_spec : ∀ (l acc : List T), acc.Nodup → (distinct l acc).Nodup ∧ ∀ a, a ∈ distinct l acc ↔ a ∈ l ∨ a ∈ acc
  | [], acc, h => ⟨h, fun a => by simp [distinct]⟩
  | x :: l, acc, h => by
    unfold distinct
    split
    · rename_i hx
      obtain ⟨h1, h2⟩ := distinct_spec l acc h
      refine ⟨h1, fun a => ?_⟩
      rw [h2, List.mem_cons]
      constructor
      · rintro (h | h)
        · exact .inl (.inr h)
        · exact .inr h
      · rintro ((h | h) | h)
        · exact .inr (h ▸ hx)
        · exact .inl h
        · exact .inr h
    · rename_i hx
      obtain ⟨h1, h2⟩ := distinct_spec l (acc ++ [x]) (by
        rw [List.nodup_append]
        refine ⟨h, by simp, ?_⟩
        intro a ha b hb
        simp only [List.mem_singleton] at hb
        subst hb
        exact fun e => hx (e ▸ ha))
      refine ⟨h1, fun a => ?_⟩
      rw [h2, List.mem_cons, List.mem_append, List.mem_singleton]
      constructor
      · rintro (h | h | h)
        · exact .inl (.inr h)
        · exact .inr h
        · exact .inl (.inl h)
      · rintro ((h | h) | h)
        · exact .inr (.inr h)
        · exact .inl h
        · exact .inr (.inl h)

end Oar.Details
