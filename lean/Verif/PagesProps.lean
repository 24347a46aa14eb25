import Verif.PagesSpec
import Mathlib.Data.List.Nodup
import Mathlib.Data.List.Sort

/-!
# Properties of the lists read page by page (C117)
-/

namespace Oar.Pages

open Oar.Api Spec

/-! ## The order -/

theorem place_perm {α : Type} (key : α → Nat) (a : α) (l : List α) : (place key a l).Perm (a :: l) := by
  induction l with
  | nil => exact List.Perm.refl _
  | cons b l ih =>
    unfold place
    split
    · exact List.Perm.refl _
    · exact (List.Perm.cons b ih).trans (List.Perm.swap a b l)

theorem orderBy_perm {α : Type} (key : α → Nat) (l : List α) : (orderBy key l).Perm l := by
  induction l with
  | nil => exact List.Perm.refl _
  | cons b l ih => exact (place_perm key b _).trans (List.Perm.cons b ih)

theorem place_sorted {α : Type} (key : α → Nat) (a : α) (l : List α) (h : l.Pairwise (fun x y => key x ≤ key y)) :
    (place key a l).Pairwise (fun x y => key x ≤ key y) := by
  induction l with
  | nil => exact List.pairwise_singleton _ _
  | cons b l ih =>
    have hb := List.pairwise_cons.1 h
    unfold place
    split
    · rename_i hab
      refine List.pairwise_cons.2 ⟨fun y hy => ?_, h⟩
      rcases List.mem_cons.1 hy with e | hy
      · rw [e]; exact hab
      · exact Nat.le_trans hab (hb.1 y hy)
    · rename_i hab
      refine List.pairwise_cons.2 ⟨fun y hy => ?_, ih hb.2⟩
      rcases List.mem_cons.1 ((place_perm key a l).mem_iff.1 hy) with e | hy
      · rw [e]; omega
      · exact hb.1 y hy

theorem orderBy_sorted {α : Type} (key : α → Nat) (l : List α) : (orderBy key l).Pairwise (fun x y => key x ≤ key y) := by
  induction l with
  | nil => exact List.Pairwise.nil
  | cons b l ih => exact place_sorted key b _ ih

/-- The identifiers of a list put in order increase strictly when they are all different. -/
theorem orderBy_inc {α : Type} (key : α → Nat) (l : List α) (h : (l.map key).Nodup) : ((orderBy key l).map key).Pairwise (· < ·) := by
  have hs := orderBy_sorted key l
  have hn : ((orderBy key l).map key).Nodup := ((orderBy_perm key l).map key).nodup_iff.2 h
  have hs' : ((orderBy key l).map key).Pairwise (· ≤ ·) := List.pairwise_map.2 hs
  exact (hs'.and hn).imp (fun h => Nat.lt_of_le_of_ne h.1 h.2)

/-! ## The rows of a page -/

/-- Number of the rows before an identifier. -/
def below (l : List Nat) (i : Nat) : Nat := (l.filter (fun x => decide (x < i))).length

theorem below_cons_lt (x : Nat) (l : List Nat) (i : Nat) (h : x < i) : below (x :: l) i = below l i + 1 := by
  unfold below
  rw [List.filter_cons, if_pos (by simpa using h)]
  rfl

theorem below_self (x : Nat) (l : List Nat) (h : ∀ y ∈ l, x < y) : below (x :: l) x = 0 := by
  unfold below
  rw [List.length_eq_zero_iff, List.filter_eq_nil_iff]
  intro y hy
  rcases List.mem_cons.1 hy with e | hy
  · simp [e]
  · have := h y hy; simp; omega

theorem mem_page (l : List Nat) (hl : l.Pairwise (· < ·)) (i a b : Nat) :
    i ∈ (l.drop a).take b ↔ i ∈ l ∧ a ≤ below l i ∧ below l i < a + b := by
  induction l generalizing a b with
  | nil => simp
  | cons x l ih =>
    have hx := List.pairwise_cons.1 hl
    by_cases e : i = x
    · subst e
      rw [below_self i l hx.1]
      have hni : i ∉ l := fun h => Nat.lt_irrefl _ (hx.1 i h)
      cases a with
      | zero =>
        cases b with
        | zero => simp
        | succ b => simp
      | succ a =>
        rw [List.drop_succ_cons]
        constructor
        · intro h
          exact absurd (List.mem_of_mem_drop (List.mem_of_mem_take h)) hni
        · intro h; omega
    · by_cases hi : i ∈ l
      · have hlt := hx.1 i hi
        rw [below_cons_lt x l i hlt]
        cases a with
        | zero =>
          cases b with
          | zero => simp
          | succ b =>
            have := ih hx.2 0 b
            simp only [List.drop_zero] at this ⊢
            rw [List.take_succ_cons, List.mem_cons, this, List.mem_cons]
            constructor
            · rintro (h | h)
              · exact absurd h e
              · exact ⟨.inr h.1, by omega, by omega⟩
            · rintro ⟨_, _, h⟩
              exact .inr ⟨hi, by omega, by omega⟩
        | succ a =>
          rw [List.drop_succ_cons, ih hx.2 a b, List.mem_cons]
          constructor
          · rintro ⟨_, h1, h2⟩; exact ⟨.inr hi, by omega, by omega⟩
          · rintro ⟨_, h1, h2⟩; exact ⟨hi, by omega, by omega⟩
      · constructor
        · intro h
          rcases List.mem_cons.1 (List.mem_of_mem_drop (List.mem_of_mem_take h)) with h | h
          · exact absurd h e
          · exact absurd h hi
        · rintro ⟨h, _⟩
          rcases List.mem_cons.1 h with h | h
          · exact absurd h e
          · exact absurd h hi

theorem below_mono (l l' : List Nat) (i : Nat) (hn : l.Nodup) (h : ∀ x ∈ l, x < i → x ∈ l') : below l i ≤ below l' i := by
  unfold below
  refine (List.subperm_of_subset (hn.filter _) ?_).length_le
  intro x hx
  obtain ⟨h1, h2⟩ := List.mem_filter.1 hx
  exact List.mem_filter.2 ⟨h x h1 (by simpa using h2), h2⟩

theorem below_lt_length (l : List Nat) (i : Nat) (h : i ∈ l) : below l i < l.length := by
  unfold below
  have : (l.filter (fun x => decide (x < i))).length ≤ (l.filter (fun x => decide (x ≠ i))).length := by
    exact (List.monotone_filter_right l (fun x hx => by simp at hx ⊢; omega)).length_le
  refine Nat.lt_of_le_of_lt this ?_
  exact List.length_filter_lt_length_iff_exists.2 ⟨i, h, by simp⟩

/-! ## The answers -/

theorem answer_items {α : Type} (q : Nat → List α) (limit k : Nat) :
    (match answer q limit k with | none => [] | some p => p.items) = ((q k).drop (k * limit)).take limit := by
  unfold answer paginate
  rw [if_neg (by omega)]
  dsimp only
  rw [Int.toNat_natCast]
  split
  · rename_i h
    split at h
    · rename_i h'; exact h'.1.symm
    · cases h
  · rename_i p h
    split at h
    · cases h
    · cases h; rfl

theorem given_eq {α : Type} (q : Nat → List α) (limit n : Nat) :
    given q limit n = (List.range n).flatMap (fun k => ((q k).drop (k * limit)).take limit) := by
  unfold given
  congr 1
  funext k
  exact answer_items q limit k

theorem given_two {α : Type} (q : Nat → List α) (limit : Nat) : given q limit 2 = (q 0).take limit ++ ((q 1).drop limit).take limit := by
  rw [given_eq]
  simp [List.range_succ]

/-- A row is given exactly when, at some request, it is at a rank of that page. -/
theorem mem_given {α : Type} (q : Nat → List α) (key : α → Nat) (limit n i : Nat) (hq : ∀ k, ((q k).map key).Pairwise (· < ·)) :
    i ∈ (given q limit n).map key ↔
      ∃ k, k < n ∧ i ∈ (q k).map key ∧ k * limit ≤ below ((q k).map key) i ∧ below ((q k).map key) i < k * limit + limit := by
  rw [given_eq, List.map_flatMap, List.mem_flatMap]
  constructor
  · rintro ⟨k, hk, h⟩
    rw [List.map_take, List.map_drop, mem_page _ (hq k)] at h
    exact ⟨k, List.mem_range.1 hk, h⟩
  · rintro ⟨k, hk, h⟩
    refine ⟨k, List.mem_range.2 hk, ?_⟩
    rw [List.map_take, List.map_drop, mem_page _ (hq k)]
    exact h

theorem ended_length {α : Type} (q : Nat → List α) (limit n : Nat) (hl : 0 < limit) (h : Ended limit (answer q limit n)) :
    (q n).length < (n + 1) * limit := by
  have hi := answer_items q limit n
  have hlen : (((q n).drop (n * limit)).take limit).length < limit := by
    rw [← hi]
    cases ha : answer q limit n with
    | none => exact hl
    | some p => rw [ha] at h; exact h
  rw [List.length_take, List.length_drop] at hlen
  rw [Nat.add_mul, Nat.one_mul]
  omega

/-- Nothing is missed when no row leaves. -/
theorem complete {α : Type} (q : Nat → List α) (key : α → Nat) (limit : Nat) (hl : 0 < limit) (hq : ∀ k, ((q k).map key).Pairwise (· < ·))
    (hs : ∀ k i, i ∈ (q k).map key → i ∈ (q (k + 1)).map key) (n : Nat) (hend : Ended limit (answer q limit n)) (i : Nat) (hi : i ∈ (q 0).map key) :
    i ∈ (given q limit (n + 1)).map key := by
  rw [mem_given q key limit (n + 1) i hq]
  have hall : ∀ k, i ∈ (q k).map key := fun k => by
    induction k with
    | zero => exact hi
    | succ k ih => exact hs k i ih
  have hstep : ∀ k, below ((q k).map key) i ≤ below ((q (k + 1)).map key) i := fun k =>
    below_mono _ _ i ((hq k).imp (fun h => Nat.ne_of_lt h)) (fun x hx _ => hs k x hx)
  have hlast : below ((q n).map key) i < n * limit + limit := by
    have h1 := below_lt_length _ i (hall n)
    have h2 := ended_length q limit n hl hend
    rw [List.length_map] at h1
    rw [Nat.add_mul, Nat.one_mul] at h2
    omega
  have main : ∀ m, below ((q m).map key) i < m * limit + limit →
      ∃ k, k < m + 1 ∧ k * limit ≤ below ((q k).map key) i ∧ below ((q k).map key) i < k * limit + limit := by
    intro m
    induction m with
    | zero => intro h; exact ⟨0, by omega, by omega, h⟩
    | succ m ih =>
      intro h
      by_cases hm : below ((q m).map key) i < m * limit + limit
      · obtain ⟨k, hk, h1, h2⟩ := ih hm
        exact ⟨k, by omega, h1, h2⟩
      · refine ⟨m + 1, by omega, ?_, h⟩
        have := hstep m
        rw [Nat.add_mul, Nat.one_mul]
        omega
  obtain ⟨k, hk, h1, h2⟩ := main n hlast
  exact ⟨k, hk, hall k, h1, h2⟩

/-- No row is given twice when those that enter come after the others. -/
theorem once {α : Type} (q : Nat → List α) (key : α → Nat) (limit : Nat) (hq : ∀ k, ((q k).map key).Pairwise (· < ·))
    (hs : ∀ j k i, j < k → i ∈ (q k).map key → i ∉ (q j).map key → ∀ i', i' ∈ (q j).map key → i' < i) (n : Nat) :
    ((given q limit n).map key).Nodup := by
  rw [given_eq, List.map_flatMap, List.nodup_flatMap]
  refine ⟨fun k _ => ?_, ?_⟩
  · have : ((q k).map key).Nodup := (hq k).imp (fun h => Nat.ne_of_lt h)
    rw [List.map_take, List.map_drop]
    exact (this.sublist (List.drop_sublist _ _)).sublist (List.take_sublist _ _)
  · refine List.Pairwise.imp ?_ (List.pairwise_lt_range (n := n))
    intro j k hjk i hj hk
    have hj := (mem_page _ (hq j) i (j * limit) limit).1 (by rw [← List.map_drop, ← List.map_take]; exact hj)
    have hk := (mem_page _ (hq k) i (k * limit) limit).1 (by rw [← List.map_drop, ← List.map_take]; exact hk)
    have hle : below ((q k).map key) i ≤ below ((q j).map key) i := by
      refine below_mono _ _ i ((hq k).imp (fun h => Nat.ne_of_lt h)) (fun x hx hxi => ?_)
      by_contra hnot
      have := hs j k x hjk hx hnot i hj.1
      omega
    have : (j + 1) * limit ≤ k * limit := Nat.mul_le_mul_right _ hjk
    rw [Nat.add_mul, Nat.one_mul] at this
    omega

theorem sound {α : Type} (q : Nat → List α) (limit n : Nat) (a : α) (h : a ∈ given q limit n) : ∃ k, k < n ∧ a ∈ q k := by
  rw [given_eq, List.mem_flatMap] at h
  obtain ⟨k, hk, h⟩ := h
  exact ⟨k, List.mem_range.1 hk, List.mem_of_mem_drop (List.mem_of_mem_take h)⟩

theorem below_le (l : List Nat) (i j : Nat) (h : i ≤ j) : below l i ≤ below l j :=
  (List.monotone_filter_right l (fun x hx => by simp at hx ⊢; omega)).length_le

/-- A row of the first page leaves: the first row of the next page is never given. -/
theorem missed {α : Type} (q : Nat → List α) (key : α → Nat) (limit : Nat) (hq : ∀ k, ((q k).map key).Pairwise (· < ·)) (x : Nat)
    (hx : x ∈ ((q 0).take limit).map key) (hlen : limit < (q 0).length)
    (hs : ∀ k i, 0 < k → (i ∈ (q k).map key ↔ i ∈ (q 0).map key ∧ i ≠ x)) :
    ∃ i, i ∈ (q 0).map key ∧ i ≠ x ∧ ∀ n, i ∉ (given q limit n).map key := by
  have hne : (((q 0).map key).drop limit).take 1 ≠ [] := by
    intro e
    have := congrArg List.length e
    simp at this
    omega
  obtain ⟨i, hi⟩ := List.exists_mem_of_ne_nil _ hne
  rw [mem_page _ (hq 0)] at hi
  have hx' : x ∈ (((q 0).map key).drop 0).take limit := by rw [List.drop_zero, ← List.map_take]; exact hx
  rw [mem_page _ (hq 0)] at hx'
  have hxi : x < i := by
    by_contra h
    have := below_le ((q 0).map key) i x (by omega)
    omega
  refine ⟨i, hi.1, by omega, fun n h => ?_⟩
  rw [mem_given q key limit n i hq] at h
  obtain ⟨k, _, hk, h1, h2⟩ := h
  by_cases h0 : k = 0
  · subst h0; omega
  · have hb : below ((q k).map key) i + 1 ≤ below ((q 0).map key) i := by
      unfold below
      have hn : (x :: ((q k).map key).filter (fun y => decide (y < i))).Nodup := by
        refine List.nodup_cons.2 ⟨fun h => ?_, ((hq k).imp (fun h => Nat.ne_of_lt h)).filter _⟩
        exact ((hs k x (by omega)).1 (List.mem_filter.1 h).1).2 rfl
      have := (List.subperm_of_subset hn (l₂ := ((q 0).map key).filter (fun y => decide (y < i))) ?_).length_le
      · simpa using this
      · intro y hy
        rcases List.mem_cons.1 hy with e | hy
        · rw [e]; exact List.mem_filter.2 ⟨hx'.1, by simpa using hxi⟩
        · obtain ⟨hy1, hy2⟩ := List.mem_filter.1 hy
          exact List.mem_filter.2 ⟨((hs k y (by omega)).1 hy1).1, hy2⟩
    have : limit ≤ k * limit := Nat.le_mul_of_pos_left _ (by omega)
    omega

/-- A row enters before the last one of the first page: this one is given again by the second page. -/
theorem doubled {α : Type} (q : Nat → List α) (key : α → Nat) (limit : Nat) (hq : ∀ k, ((q k).map key).Pairwise (· < ·)) (x : Nat) (p : Page α) (a : α)
    (hp : answer q limit 0 = some p) (hfull : p.items.length = limit) (ha : p.items.getLast? = some a)
    (hx : x ∉ (q 0).map key) (hxa : x < key a) (hs : ∀ i, i ∈ (q 1).map key ↔ i = x ∨ i ∈ (q 0).map key) :
    2 ≤ ((given q limit 2).map key).count (key a) := by
  have hitems : p.items = (q 0).take limit := by
    have := answer_items q limit 0
    rw [hp] at this
    simpa using this
  have hpos : 0 < limit := by
    rw [← hfull]
    exact List.length_pos_iff.2 (fun e => by rw [e] at ha; cases ha)
  have hmem : a ∈ (q 0).take limit := by rw [← hitems]; exact List.mem_of_getLast? ha
  have hya : key a ∈ (q 0).map key := List.mem_map.2 ⟨a, List.mem_of_mem_take hmem, rfl⟩
  have hdrop : key a ∈ (((q 0).map key).drop (limit - 1)).take 1 := by
    rw [List.getLast?_eq_getElem?, hfull, hitems, List.getElem?_take, if_pos (by omega)] at ha
    have hlt : limit - 1 < (q 0).length := by
      by_contra h
      rw [List.getElem?_eq_none (by omega)] at ha
      cases ha
    rw [← List.map_drop, ← List.map_take, List.drop_eq_getElem_cons hlt]
    rw [List.getElem?_eq_getElem hlt] at ha
    cases ha
    exact List.mem_map.2 ⟨_, by rw [List.take_succ_cons]; exact List.mem_cons_self, rfl⟩
  rw [mem_page _ (hq 0)] at hdrop
  have hb : below ((q 1).map key) (key a) = below ((q 0).map key) (key a) + 1 := by
    have hn0 : ((q 0).map key).Nodup := (hq 0).imp (fun h => Nat.ne_of_lt h)
    have hn1 : ((q 1).map key).Nodup := (hq 1).imp (fun h => Nat.ne_of_lt h)
    have hn : (x :: ((q 0).map key).filter (fun y => decide (y < key a))).Nodup :=
      List.nodup_cons.2 ⟨fun h => hx (List.mem_filter.1 h).1, hn0.filter _⟩
    have hperm : (((q 1).map key).filter (fun y => decide (y < key a))).Perm (x :: ((q 0).map key).filter (fun y => decide (y < key a))) := by
      refine (List.perm_ext_iff_of_nodup (hn1.filter _) hn).2 (fun y => ?_)
      rw [List.mem_filter, hs y, List.mem_cons, List.mem_filter]
      constructor
      · rintro ⟨h | h, h'⟩
        · exact .inl h
        · exact .inr ⟨h, h'⟩
      · rintro (h | ⟨h, h'⟩)
        · exact ⟨.inl h, by rw [h]; simpa using hxa⟩
        · exact ⟨.inr h, h'⟩
    unfold below
    rw [hperm.length_eq]
    rfl
  have h1 : key a ∈ (((q 1).map key).drop (1 * limit)).take limit := by
    rw [mem_page _ (hq 1)]
    exact ⟨(hs _).2 (.inr hya), by omega, by omega⟩
  have h0 : key a ∈ (((q 0).map key).drop (0 * limit)).take limit := by
    rw [mem_page _ (hq 0)]
    exact ⟨hya, by omega, by omega⟩
  have hg : (given q limit 2).map key = (((q 0).map key).drop (0 * limit)).take limit ++ (((q 1).map key).drop (1 * limit)).take limit := by
    rw [given_eq]
    simp [List.range_succ]
  rw [hg, List.count_append]
  have c0 := List.count_pos_iff.2 h0
  have c1 := List.count_pos_iff.2 h1
  omega

theorem first_page {α : Type} (q : Nat → List α) (limit : Nat) (p : Page α) (hp : answer q limit 0 = some p) :
    p.items = (q 0).take limit ∧ (limit < p.total → limit < (q 0).length) := by
  have hitems : p.items = (q 0).take limit := by
    have := answer_items q limit 0
    rw [hp] at this
    simpa using this
  refine ⟨hitems, fun hmore => ?_⟩
  unfold answer paginate at hp
  rw [if_neg (by omega)] at hp
  dsimp only at hp
  split at hp
  · cases hp
  · cases hp
    dsimp only at hmore
    split at hmore
    · rename_i h
      omega
    · exact hmore

/-! ## The routes -/

theorem resources_mem (addr : Option String) (rows : List Res) (r : Res) :
    r ∈ resources addr rows ↔ r ∈ rows ∧ (addr = none ∨ addr = some r.address) := by
  unfold resources
  rw [(orderBy_perm _ _).mem_iff]
  cases addr with
  | none => simp
  | some a =>
    simp only [List.mem_filter, beq_iff_eq, reduceCtorEq, false_or, Option.some.injEq]
    constructor
    · rintro ⟨h, e⟩; exact ⟨h, e.symm⟩
    · rintro ⟨h, e⟩; exact ⟨h, e.symm⟩

theorem resources_listed (addr : Option String) (rows : List Res) (i : Nat) : i ∈ (resources addr rows).map Res.id ↔ ResourceListed addr rows i := by
  rw [List.mem_map]
  unfold ResourceListed
  constructor
  · rintro ⟨r, h, e⟩
    have := (resources_mem addr rows r).1 h
    exact ⟨r, this.1, e, this.2⟩
  · rintro ⟨r, h, e, h'⟩
    exact ⟨r, (resources_mem addr rows r).2 ⟨h, h'⟩, e⟩

theorem resources_inc (addr : Option String) (rows : List Res) (h : (rows.map Res.id).Nodup) : ((resources addr rows).map Res.id).Pairwise (· < ·) := by
  unfold resources
  refine orderBy_inc _ _ ?_
  cases addr with
  | none => exact h
  | some a => exact h.sublist (List.filter_sublist.map _)

theorem resourceJobs_mem (rid : Nat) (db : Db) (j : Job) :
    j ∈ resourceJobs rid db ↔ j ∈ db.jobs ∧ ∃ m ∈ db.molds, m.job = j.id ∧ ∃ a ∈ db.assigned, a.mold = m.id ∧ a.rid = rid := by
  unfold resourceJobs
  rw [(orderBy_perm _ _).mem_iff, List.mem_filter]
  simp only [List.any_eq_true, Bool.and_eq_true, beq_iff_eq]
  constructor
  · rintro ⟨h, a, ha, h1, m, hm, h2, h3⟩; exact ⟨h, m, hm, h3, a, ha, h2.symm, h1⟩
  · rintro ⟨h, m, hm, h3, a, ha, h2, h1⟩; exact ⟨h, a, ha, h1, m, hm, h2.symm, h3⟩

theorem resourceJobs_listed (rid : Nat) (db : Db) (i : Nat) : i ∈ (resourceJobs rid db).map Job.id ↔ HadResource rid db i := by
  rw [List.mem_map]
  unfold HadResource
  constructor
  · rintro ⟨j, h, rfl⟩
    have := (resourceJobs_mem rid db j).1 h
    exact ⟨j, this.1, rfl, this.2⟩
  · rintro ⟨j, h, rfl, h'⟩
    exact ⟨j, (resourceJobs_mem rid db j).2 ⟨h, h'⟩, rfl⟩

theorem resourceJobs_inc (rid : Nat) (db : Db) (h : (db.jobs.map Job.id).Nodup) : ((resourceJobs rid db).map Job.id).Pairwise (· < ·) :=
  orderBy_inc _ _ (h.sublist (List.filter_sublist.map _))

theorem jobs_listed (f : Filter) (db : Db) (i : Nat) : i ∈ (jobs f db).map Job.id ↔ JobListed f db i := by
  unfold jobs JobListed
  rw [List.mem_map]
  simp only [(orderBy_perm _ _).mem_iff]

theorem jobs_inc (f : Filter) (db : Db) (h : (db.jobs.map Job.id).Nodup) : ((jobs f db).map Job.id).Pairwise (· < ·) :=
  orderBy_inc _ _ (h.sublist (List.filter_sublist.map _))

/-- **C117**, the resources. The tables change as they like between the requests: what is given is in the list; nothing is missed if no row leaves the list; nothing is given twice if
the rows that enter are new ones. -/
theorem resources_pages_partial (addr : Option String) (t : Nat → List Res) (hids : ∀ k, ((t k).map Res.id).Nodup) (limit : Nat) (hl : 0 < limit) :
    (∀ n r, r ∈ given (fun k => resources addr (t k)) limit n → ∃ k, k < n ∧ r ∈ t k ∧ (addr = none ∨ addr = some r.address)) ∧
    (NoneLeaves (fun k => ResourceListed addr (t k)) → ∀ n, Ended limit (answer (fun k => resources addr (t k)) limit n) →
      ∀ i, ResourceListed addr (t 0) i → ∃ r ∈ given (fun k => resources addr (t k)) limit (n + 1), r.id = i) ∧
    (OnlyNewOnes (fun k => ResourceListed addr (t k)) → ∀ n, ((given (fun k => resources addr (t k)) limit n).map Res.id).Nodup) := by
  have hq : ∀ k, ((resources addr (t k)).map Res.id).Pairwise (· < ·) := fun k => resources_inc addr _ (hids k)
  refine ⟨fun n r h => ?_, fun hn n hend i hi => ?_, fun ho n => ?_⟩
  · obtain ⟨k, hk, h⟩ := sound _ limit n r h
    have := (resources_mem addr (t k) r).1 h
    exact ⟨k, hk, this.1, this.2⟩
  · have := complete (fun k => resources addr (t k)) Res.id limit hl hq
      (fun k i h => (resources_listed addr _ i).2 (hn k i ((resources_listed addr _ i).1 h))) n hend i ((resources_listed addr _ i).2 hi)
    exact List.mem_map.1 this
  · refine once (fun k => resources addr (t k)) Res.id limit hq (fun j k i hjk h1 h2 i' h3 => ?_) n
    exact ho j k i hjk ((resources_listed addr _ i).1 h1) (fun h => h2 ((resources_listed addr _ i).2 h)) i' ((resources_listed addr _ i').1 h3)

/-- **C117**, the jobs of a resource. -/
theorem resource_jobs_pages_partial (rid : Nat) (t : Nat → Db) (hids : ∀ k, ((t k).jobs.map Job.id).Nodup) (limit : Nat) (hl : 0 < limit) :
    (∀ n j, j ∈ given (fun k => resourceJobs rid (t k)) limit n → ∃ k, k < n ∧ j ∈ (t k).jobs ∧ HadResource rid (t k) j.id) ∧
    (NoneLeaves (fun k => HadResource rid (t k)) → ∀ n, Ended limit (answer (fun k => resourceJobs rid (t k)) limit n) →
      ∀ i, HadResource rid (t 0) i → ∃ j ∈ given (fun k => resourceJobs rid (t k)) limit (n + 1), j.id = i) ∧
    (OnlyNewOnes (fun k => HadResource rid (t k)) → ∀ n, ((given (fun k => resourceJobs rid (t k)) limit n).map Job.id).Nodup) := by
  have hq : ∀ k, ((resourceJobs rid (t k)).map Job.id).Pairwise (· < ·) := fun k => resourceJobs_inc rid _ (hids k)
  refine ⟨fun n r h => ?_, fun hn n hend i hi => ?_, fun ho n => ?_⟩
  · obtain ⟨k, hk, h⟩ := sound _ limit n r h
    have := (resourceJobs_mem rid (t k) r).1 h
    exact ⟨k, hk, this.1, r, this.1, rfl, this.2⟩
  · have := complete (fun k => resourceJobs rid (t k)) Job.id limit hl hq
      (fun k i h => (resourceJobs_listed rid _ i).2 (hn k i ((resourceJobs_listed rid _ i).1 h))) n hend i ((resourceJobs_listed rid _ i).2 hi)
    exact List.mem_map.1 this
  · refine once (fun k => resourceJobs rid (t k)) Job.id limit hq (fun j k i hjk h1 h2 i' h3 => ?_) n
    exact ho j k i hjk ((resourceJobs_listed rid _ i).1 h1) (fun h => h2 ((resourceJobs_listed rid _ i).2 h)) i' ((resourceJobs_listed rid _ i').1 h3)

/-- **C117**, the list of jobs. -/
theorem jobs_pages_partial (f : Filter) (t : Nat → Db) (hids : ∀ k, ((t k).jobs.map Job.id).Nodup) (limit : Nat) (hl : 0 < limit) :
    (∀ n j, j ∈ given (fun k => jobs f (t k)) limit n → ∃ k, k < n ∧ j ∈ jobsForUser (t k) f) ∧
    (NoneLeaves (fun k => JobListed f (t k)) → ∀ n, Ended limit (answer (fun k => jobs f (t k)) limit n) →
      ∀ i, JobListed f (t 0) i → ∃ j ∈ given (fun k => jobs f (t k)) limit (n + 1), j.id = i) ∧
    (OnlyNewOnes (fun k => JobListed f (t k)) → ∀ n, ((given (fun k => jobs f (t k)) limit n).map Job.id).Nodup) := by
  have hq : ∀ k, ((jobs f (t k)).map Job.id).Pairwise (· < ·) := fun k => jobs_inc f _ (hids k)
  refine ⟨fun n r h => ?_, fun hn n hend i hi => ?_, fun ho n => ?_⟩
  · obtain ⟨k, hk, h⟩ := sound _ limit n r h
    exact ⟨k, hk, (orderBy_perm Job.id _).mem_iff.1 h⟩
  · have := complete (fun k => jobs f (t k)) Job.id limit hl hq
      (fun k i h => (jobs_listed f _ i).2 (hn k i ((jobs_listed f _ i).1 h))) n hend i ((jobs_listed f _ i).2 hi)
    exact List.mem_map.1 this
  · refine once (fun k => jobs f (t k)) Job.id limit hq (fun j k i hjk h1 h2 i' h3 => ?_) n
    exact ho j k i hjk ((jobs_listed f _ i).1 h1) (fun h => h2 ((jobs_listed f _ i).2 h)) i' ((jobs_listed f _ i').1 h3)

/-- **C117**, refuted for all lists of more than a page: a resource of the first page is removed before the second request; some other resource, in the list all along, is given by no
request. -/
theorem resources_missed_violated (addr : Option String) (t : Nat → List Res) (hids : ∀ k, ((t k).map Res.id).Nodup) (limit : Nat) (p : Page Res) (r : Res)
    (hp : answer (fun k => resources addr (t k)) limit 0 = some p) (hr : r ∈ p.items) (hmore : limit < p.total)
    (hs : ∀ k i, 0 < k → (ResourceListed addr (t k) i ↔ ResourceListed addr (t 0) i ∧ i ≠ r.id)) :
    ∃ i, (∀ k, ResourceListed addr (t k) i) ∧ ∀ n, ∀ r' ∈ given (fun k => resources addr (t k)) limit n, r'.id ≠ i := by
  obtain ⟨hitems, hlen⟩ := first_page _ limit p hp
  obtain ⟨i, h1, h2, h3⟩ := missed (fun k => resources addr (t k)) Res.id limit (fun k => resources_inc addr _ (hids k)) r.id
    (List.mem_map.2 ⟨r, by rw [← hitems]; exact hr, rfl⟩) (hlen hmore)
    (fun k i hk => by rw [resources_listed, resources_listed]; exact hs k i hk)
  have h1' := (resources_listed addr _ i).1 h1
  refine ⟨i, fun k => ?_, fun n r' hr' e => h3 n (List.mem_map.2 ⟨r', hr', e⟩)⟩
  by_cases h0 : k = 0
  · rw [h0]; exact h1'
  · exact (hs k i (by omega)).2 ⟨h1', h2⟩

/-- **C117**, refuted for all lists of jobs of more than a page: a job of the first page leaves the list (it ends, it starts: its state is not one of those asked for) before the second
request; some other job, in the list all along, is given by no request. -/
theorem jobs_missed_violated (f : Filter) (t : Nat → Db) (hids : ∀ k, ((t k).jobs.map Job.id).Nodup) (limit : Nat) (p : Page Job) (j : Job)
    (hp : answer (fun k => jobs f (t k)) limit 0 = some p) (hr : j ∈ p.items) (hmore : limit < p.total)
    (hs : ∀ k i, 0 < k → (JobListed f (t k) i ↔ JobListed f (t 0) i ∧ i ≠ j.id)) :
    ∃ i, (∀ k, JobListed f (t k) i) ∧ ∀ n, ∀ j' ∈ given (fun k => jobs f (t k)) limit n, j'.id ≠ i := by
  obtain ⟨hitems, hlen⟩ := first_page _ limit p hp
  obtain ⟨i, h1, h2, h3⟩ := missed (fun k => jobs f (t k)) Job.id limit (fun k => jobs_inc f _ (hids k)) j.id
    (List.mem_map.2 ⟨j, by rw [← hitems]; exact hr, rfl⟩) (hlen hmore)
    (fun k i hk => by rw [jobs_listed, jobs_listed]; exact hs k i hk)
  have h1' := (jobs_listed f _ i).1 h1
  refine ⟨i, fun k => ?_, fun n r' hr' e => h3 n (List.mem_map.2 ⟨r', hr', e⟩)⟩
  by_cases h0 : k = 0
  · rw [h0]; exact h1'
  · exact (hs k i (by omega)).2 ⟨h1', h2⟩

/-- **C117**, refuted for all full pages: a job submitted before the last one of the first page receives the resource before the second request; the last job of the first page is given
twice. -/
theorem resource_jobs_twice_violated (rid : Nat) (t : Nat → Db) (hids : ∀ k, ((t k).jobs.map Job.id).Nodup) (limit : Nat) (p : Page Job) (j : Job) (x : Nat)
    (hp : answer (fun k => resourceJobs rid (t k)) limit 0 = some p) (hfull : p.items.length = limit) (hj : p.items.getLast? = some j)
    (hx : ¬ HadResource rid (t 0) x) (hxj : x < j.id) (hs : ∀ i, HadResource rid (t 1) i ↔ i = x ∨ HadResource rid (t 0) i) :
    2 ≤ ((given (fun k => resourceJobs rid (t k)) limit 2).map Job.id).count j.id :=
  doubled (fun k => resourceJobs rid (t k)) Job.id limit (fun k => resourceJobs_inc rid _ (hids k)) x p j hp hfull hj
    (fun h => hx ((resourceJobs_listed rid _ x).1 h)) hxj (fun i => by rw [resourceJobs_listed, resourceJobs_listed]; exact hs i)

/-- **C117**, refuted for all full pages of the list of jobs: a job older than the last one of the first page enters the list (it takes one of the states asked for). -/
theorem jobs_twice_violated (f : Filter) (t : Nat → Db) (hids : ∀ k, ((t k).jobs.map Job.id).Nodup) (limit : Nat) (p : Page Job) (j : Job) (x : Nat)
    (hp : answer (fun k => jobs f (t k)) limit 0 = some p) (hfull : p.items.length = limit) (hj : p.items.getLast? = some j)
    (hx : ¬ JobListed f (t 0) x) (hxj : x < j.id) (hs : ∀ i, JobListed f (t 1) i ↔ i = x ∨ JobListed f (t 0) i) :
    2 ≤ ((given (fun k => jobs f (t k)) limit 2).map Job.id).count j.id :=
  doubled (fun k => jobs f (t k)) Job.id limit (fun k => jobs_inc f _ (hids k)) x p j hp hfull hj
    (fun h => hx ((jobs_listed f _ x).1 h)) hxj (fun i => by rw [jobs_listed, jobs_listed]; exact hs i)

/-- **C117**, the events of a job: a single page of at least their number gives them all and their number, in whichever order the database gives them. -/
theorem events_one_page (job : Nat) (rows : List Event) (limit : Nat) (h : (rows.filter (fun e => e.job == job)).length ≤ limit) :
    ∃ p, answer (fun _ => jobEvents job rows) limit 0 = some p ∧ p.total = (rows.filter (fun e => e.job == job)).length ∧
      (p.items.Nodup ↔ (rows.filter (fun e => e.job == job)).Nodup) ∧ ∀ e, e ∈ p.items ↔ e ∈ rows ∧ e.job = job := by
  refine ⟨⟨rows.filter (fun e => e.job == job), (rows.filter (fun e => e.job == job)).length⟩, ?_, rfl, Iff.rfl, fun e => by simp [List.mem_filter]⟩
  unfold answer paginate jobEvents
  rw [if_neg (by omega)]
  dsimp only
  rw [if_neg (by simp), Nat.zero_mul]
  have ht : List.take limit (List.drop (Int.toNat ((0 : Nat) : Int)) (rows.filter (fun e => e.job == job))) = rows.filter (fun e => e.job == job) :=
    List.take_of_length_le h
  rw [ht]
  congr 2
  split <;> rfl

/-- **C117**, refuted for all jobs with more events than a page: nothing changes, but no order is asked for; for some order of the rows at each request, which the database is free to
choose, an event is given by no request and another one twice. -/
theorem events_violated (job : Nat) (rows : List Event) (hids : (rows.map Event.id).Nodup) (limit : Nat) (hl : 0 < limit)
    (hmore : limit < (rows.filter (fun e => e.job == job)).length) :
    ∃ t : Nat → List Event, (∀ k, (t k).Perm rows) ∧
      (∃ e ∈ rows, e.job = job ∧ ∀ n, e ∉ given (fun k => jobEvents job (t k)) limit n) ∧
      (∃ e ∈ rows, e.job = job ∧ 2 ≤ (given (fun k => jobEvents job (t k)) limit 2).count e) := by
  have hnd : (rows.filter (fun e => e.job == job)).Nodup := (List.Nodup.of_map _ hids).filter _
  have hall : ∀ e ∈ rows.filter (fun e => e.job == job), e ∈ rows ∧ e.job = job := fun e he => by simpa [List.mem_filter] using he
  have hperm : (rows.filter (fun e => e.job == job) ++ rows.filter (fun e => !(e.job == job))).Perm rows := List.filter_append_perm _ _
  have hrest : (rows.filter (fun e => !(e.job == job))).filter (fun e => e.job == job) = [] := by
    rw [List.filter_filter, List.filter_eq_nil_iff]
    intro e _ h
    simp at h
  have hself : ∀ M : List Event, (∀ e ∈ M, e.job = job) → jobEvents job (M ++ rows.filter (fun e => !(e.job == job))) = M := by
    intro M hM
    unfold jobEvents
    rw [List.filter_append, hrest, List.append_nil, List.filter_eq_self]
    intro e he
    simpa using hM e he
  generalize hL : rows.filter (fun e => e.job == job) = L at *
  generalize hR : rows.filter (fun e => !(e.job == job)) = R at *
  cases L with
  | nil => simp at hmore
  | cons a L =>
    have hlt : limit - 1 < L.length := by simp at hmore; omega
    have hsplit : L = L.take (limit - 1) ++ L[limit - 1] :: L.drop limit := by
      have h1 := (List.take_append_drop (limit - 1) L).symm
      rw [List.drop_eq_getElem_cons hlt, show limit - 1 + 1 = limit by omega] at h1
      exact h1
    have hm : (L.take (limit - 1)).length = limit - 1 := by rw [List.length_take]; omega
    generalize L.take (limit - 1) = m at *
    generalize L[limit - 1] = b at *
    generalize L.drop limit = s at *
    subst hsplit
    have hpm : (b :: (m ++ a :: s)).Perm (a :: (m ++ b :: s)) := by
      have h1 : (m ++ a :: s).Perm (a :: (m ++ s)) := List.perm_middle
      have h2 : (m ++ b :: s).Perm (b :: (m ++ s)) := List.perm_middle
      exact ((List.Perm.cons b h1).trans (List.Perm.swap a b _)).trans (List.Perm.cons a h2.symm)
    have hjob : ∀ e ∈ b :: (m ++ a :: s), e.job = job := fun e he => (hall e (hpm.mem_iff.1 he)).2
    have hjob0 : ∀ e ∈ a :: (m ++ b :: s), e.job = job := fun e he => (hall e he).2
    have hnd' : (b :: (m ++ a :: s)).Nodup := hpm.nodup_iff.2 hnd
    have hb := hall b (by simp)
    have ha := hall a (by simp)
    refine ⟨fun k => if k = 0 then a :: (m ++ b :: s) ++ R else b :: (m ++ a :: s) ++ R, fun k => ?_, ⟨b, hb.1, hb.2, fun n => ?_⟩, ⟨a, ha.1, ha.2, ?_⟩⟩
    · dsimp only
      split
      · exact hperm
      · exact (List.Perm.append_right R hpm).trans hperm
    · rw [given_eq, List.mem_flatMap]
      rintro ⟨k, _, h⟩
      dsimp only at h
      by_cases h0 : k = 0
      · rw [if_pos h0, hself _ hjob0, h0, Nat.zero_mul, List.drop_zero, show limit = m.length + 1 by omega, List.take_succ_cons, List.take_left' rfl] at h
        have := (List.nodup_cons.1 hnd)
        rcases List.mem_cons.1 h with e | h
        · exact this.1 (by rw [← e]; simp)
        · have := (List.nodup_append.1 this.2).2.2 b h b (by simp)
          exact this rfl
      · rw [if_neg h0, hself _ hjob] at h
        have hk : 0 < k * limit := Nat.mul_pos (by omega) hl
        obtain ⟨d, hd⟩ : ∃ d, k * limit = d + 1 := ⟨k * limit - 1, by omega⟩
        rw [hd, List.drop_succ_cons] at h
        exact (List.nodup_cons.1 hnd').1 (List.mem_of_mem_drop (List.mem_of_mem_take h))
    · have hg : given (fun k => jobEvents job (if k = 0 then a :: (m ++ b :: s) ++ R else b :: (m ++ a :: s) ++ R)) limit 2 =
          (a :: (m ++ b :: s)).take limit ++ ((b :: (m ++ a :: s)).drop limit).take limit := by
        rw [given_two]
        show (jobEvents job ((a :: (m ++ b :: s)) ++ R)).take limit ++ ((jobEvents job ((b :: (m ++ a :: s)) ++ R)).drop limit).take limit = _
        rw [hself _ hjob0, hself _ hjob]
      rw [hg, List.count_append]
      have h0 : a ∈ (a :: (m ++ b :: s)).take limit := by
        rw [show limit = m.length + 1 by omega, List.take_succ_cons]; exact List.mem_cons_self
      have h1 : a ∈ ((b :: (m ++ a :: s)).drop limit).take limit := by
        rw [show limit = m.length + 1 by omega, List.drop_succ_cons, List.drop_left' rfl, List.take_succ_cons]; exact List.mem_cons_self
      have c0 := List.count_pos_iff.2 h0
      have c1 := List.count_pos_iff.2 h1
      omega

/-! ## Examples -/

/-- Four resources given by the database in the order it likes, a fifth one created after the first request: pages of two give the five, once, and the end is seen. -/
def growing (k : Nat) : List Res :=
  [⟨3, "n2", "Alive"⟩, ⟨1, "n1", "Alive"⟩, ⟨4, "n2", "Absent"⟩, ⟨2, "n1", "Alive"⟩] ++ (if k = 0 then [] else [⟨5, "n3", "Alive"⟩])

example : (given (fun k => resources none (growing k)) 2 3).map Res.id = [1, 2, 3, 4, 5] ∧ (answer (fun k => resources none (growing k)) 2 2).map Page.total = some 5 ∧
    (given (fun k => resources (some "n2") (growing k)) 1 3).map Res.id = [3, 4] ∧ answer (fun k => resources (some "n2") (growing k)) 1 2 = none := by decide

example : (∀ k, ((growing k).map Res.id).Nodup) ∧ NoneLeaves (fun k => ResourceListed none (growing k)) ∧ OnlyNewOnes (fun k => ResourceListed none (growing k)) ∧
    Ended 2 (answer (fun k => resources none (growing k)) 2 2) ∧ ResourceListed none (growing 0) 4 := by
  refine ⟨fun k => ?_, fun k i h => ?_, fun j k i hjk h hn i' h' => ?_, by show (1 : Nat) < 2; decide, ⟨⟨4, "n2", "Absent"⟩, by decide, rfl, .inl rfl⟩⟩
  · by_cases h : k = 0
    · subst h; decide
    · unfold growing; rw [if_neg h]; decide
  · obtain ⟨r, hr, e, he⟩ := h
    refine ⟨r, ?_, e, he⟩
    unfold growing at hr ⊢
    rw [if_neg (by omega)]
    rcases List.mem_append.1 hr with hr | hr
    · exact List.mem_append.2 (.inl hr)
    · split at hr
      · cases hr
      · exact List.mem_append.2 (.inr hr)
  · obtain ⟨r, hr, e, _⟩ := h
    obtain ⟨r', hr', e', _⟩ := h'
    subst e e'
    by_cases hj : j = 0
    · subst hj
      unfold growing at hr hr' hn
      rw [if_neg (by omega)] at hr
      rcases List.mem_append.1 hr with hr | hr
      · exact absurd ⟨r, List.mem_append.2 (.inl hr), rfl, .inl rfl⟩ hn
      · rw [if_pos rfl, List.append_nil] at hr'
        rw [List.mem_singleton] at hr
        subst hr
        simp at hr'
        rcases hr' with h | h | h | h <;> subst h <;> decide
    · refine absurd ⟨r, ?_, rfl, .inl rfl⟩ hn
      unfold growing at hr ⊢
      rw [if_neg (by omega)] at hr
      rw [if_neg hj]
      exact hr

/-- The resource 1 is removed after the first request: the resource 3 is never given. -/
example : (given (fun k => resources none (if k = 0 then growing 0 else (growing 0).filter (fun r => r.id != 1))) 2 9).map Res.id = [1, 2, 4] := by decide

/-- The jobs of the resource 7: 4 and 9, then 2, which waited; the job 9 is given twice. -/
def older (k : Nat) : Db :=
  ⟨[⟨9, "u", "Terminated", 0, 90, 5, 6, 1⟩, ⟨4, "u", "Terminated", 0, 40, 3, 4, 1⟩, ⟨2, "v", "Running", 0, 20, 7, 0, 1⟩], [⟨20, 2, 10⟩, ⟨40, 4, 10⟩, ⟨90, 9, 10⟩],
    [⟨40, 7, false⟩, ⟨90, 7, false⟩] ++ (if k = 0 then [] else [⟨20, 7, true⟩]), [], [], [7]⟩

example : (given (fun k => resourceJobs 7 (older k)) 2 2).map Job.id = [4, 9, 9] ∧ (given (fun _ => resourceJobs 7 (older 1)) 2 2).map Job.id = [2, 4, 9] := by decide

/-- The waiting jobs, by pages of two: the first one starts after the first request, and the third one is missed. -/
def starting (k : Nat) : Db :=
  ⟨[⟨3, "u", "Waiting", 0, 0, 0, 0, 1⟩, ⟨1, "u", if k = 0 then "Waiting" else "Running", 0, 0, 0, 0, 1⟩, ⟨2, "v", "Waiting", 0, 0, 0, 0, 1⟩], [], [], [], [], []⟩

example : (given (fun k => jobs { states := ["Waiting"] } (starting k)) 2 5).map Job.id = [1, 2] ∧ (jobs { states := ["Waiting"] } (starting 0)).map Job.id = [1, 2, 3] ∧
    (answer (fun k => jobs { states := ["Waiting"] } (starting k)) 2 0).map Page.total = some 3 := by decide

example : (jobEvents 5 [⟨2, 5, "A", 3⟩, ⟨1, 5, "B", 1⟩, ⟨3, 6, "A", 4⟩]).map Event.id = [2, 1] := by decide

end Oar.Pages
