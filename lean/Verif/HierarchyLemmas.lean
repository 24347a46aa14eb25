import Verif.Hierarchy
import Verif.HierarchySpec

namespace Oar.Hierarchy
open Spec

theorem eq_inter_iff_subset (a x : ProcSet) : (x = a ∩ x) ↔ x ⊆ a := by
  constructor
  · intro h r hr; rw [h] at hr; exact (Finset.mem_inter.1 hr).1
  · intro h; ext r; simp only [Finset.mem_inter]; exact ⟨fun hr => ⟨h hr, hr⟩, fun hr => hr.2⟩

/-- blocks of `ref` entirely available -/
def full (avail : ProcSet) (ref : List ProcSet) : List ProcSet :=
  ref.filter (fun x => decide (x ⊆ avail))

theorem extractLoop_eq (avail : ProcSet) : ∀ (ref : List ProcSet) (k : Nat) (acc : ProcSet),
    extractLoop avail ref (k : Int) acc =
      (acc ∪ bigUnion ((full avail ref).take k), (k : Int) - (min k (full avail ref).length : Nat))
  | [], k, acc => by simp [extractLoop, full, bigUnion]
  | x :: xs, 0, acc => by simp [extractLoop, bigUnion]
  | x :: xs, k + 1, acc => by
    unfold extractLoop
    have hk : ((k + 1 : Nat) : Int) > 0 := by omega
    simp only [hk, if_true]
    by_cases hx : x ⊆ avail
    · have h1 : x = avail ∩ x := (eq_inter_iff_subset avail x).2 hx
      have h2 : full avail (x :: xs) = x :: full avail xs := by simp [full, hx]
      rw [if_pos h1]
      have h3 : ((k + 1 : Nat) : Int) - 1 = (k : Int) := by omega
      rw [h3, extractLoop_eq avail xs k, h2]
      simp only [List.take_succ_cons, bigUnion, List.length_cons, ← h1]
      rw [Finset.union_assoc]
      congr 1
      omega
    · have h1 : ¬ (x = avail ∩ x) := fun h => hx ((eq_inter_iff_subset avail x).1 h)
      have h2 : full avail (x :: xs) = full avail xs := by simp [full, hx]
      rw [if_neg h1, extractLoop_eq avail xs (k + 1), h2]

theorem extractN_nat (avail : ProcSet) (ref : List ProcSet) (k : Nat) :
    extractN avail ref (k : Int) =
      if k ≤ (full avail ref).length then bigUnion ((full avail ref).take k) else ∅ := by
  simp only [extractN, extractLoop_eq, Finset.empty_union]
  split <;> split <;> first | rfl | omega

theorem extractLoop_neg (avail : ProcSet) (ref : List ProcSet) (n : Int) (acc : ProcSet) (h : n < 0) :
    extractLoop avail ref n acc = (acc, n) := by
  cases ref with
  | nil => simp [extractLoop]
  | cons x xs => unfold extractLoop; rw [if_neg (by omega)]

theorem extractN_neg (avail : ProcSet) (ref : List ProcSet) (n : Int) (h : n < 0) :
    extractN avail ref n = ∅ := by
  simp only [extractN, extractLoop_neg avail ref n ∅ h]
  rw [if_neg (by omega)]

/-- blocks in which the inner search succeeds -/
def good (f : ProcSet → ProcSet) (bs : List ProcSet) : List ProcSet :=
  bs.filter (fun b => decide (f b ≠ ∅))

theorem collect_nat (f : ProcSet → ProcSet) (n : Int) :
    ∀ (bs : List ProcSet) (acc : ProcSet) (nb : Int) (k : Nat), n - nb = (k : Int) →
    collect f n bs acc nb =
      (acc ∪ bigUnion (((good f bs).take k).map f), nb + (min k (good f bs).length : Nat))
  | [], acc, nb, k, _ => by simp [collect, good, bigUnion]
  | b :: bs, acc, nb, 0, hk => by
    unfold collect
    rw [if_neg (by omega)]; simp [bigUnion]
  | b :: bs, acc, nb, k + 1, hk => by
    unfold collect
    rw [if_pos (by omega)]
    by_cases hf : f b = ∅
    · have h2 : good f (b :: bs) = good f bs := by simp [good, hf]
      simp only [hf, Finset.card_empty, ne_eq, not_true_eq_false, if_false]
      rw [collect_nat f n bs acc nb (k + 1) hk, h2]
    · have h2 : good f (b :: bs) = b :: good f bs := by simp [good, hf]
      have h3 : (f b).card ≠ 0 := by rw [Ne, Finset.card_eq_zero]; exact hf
      simp only [if_pos h3]
      rw [collect_nat f n bs (acc ∪ f b) (nb + 1) k (by omega), h2]
      simp only [List.take_succ_cons, List.map_cons, bigUnion, List.length_cons]
      rw [Finset.union_assoc]
      congr 1
      omega

theorem collect_over (f : ProcSet → ProcSet) (n : Int) :
    ∀ (bs : List ProcSet) (acc : ProcSet) (nb : Int), n < nb →
    n < (collect f n bs acc nb).2
  | [], acc, nb, h => by simpa [collect] using h
  | b :: bs, acc, nb, h => by
    unfold collect
    rw [if_pos (by omega)]
    dsimp only
    split
    · exact collect_over f n bs _ _ (by omega)
    · exact collect_over f n bs _ _ h

/-- The common tail of both branches of `find_resource_n_h`. -/
def level (f : ProcSet → ProcSet) (n : Int) (avail : List ProcSet) : ProcSet :=
  if (avail.length : Int) < n then ∅
  else
    let (acc, nb) := collect f n avail ∅ 0
    if nb = n then acc else ∅

theorem level_nat (f : ProcSet → ProcSet) (k : Nat) (bs : List ProcSet) :
    level f (k : Int) bs =
      if k ≤ (good f bs).length then bigUnion (((good f bs).take k).map f) else ∅ := by
  have hlen : (good f bs).length ≤ bs.length := List.length_filter_le _ _
  unfold level
  rw [collect_nat f k bs ∅ 0 k (by omega)]
  simp only [Finset.empty_union]
  split
  · rw [if_neg (by omega)]
  · split <;> split <;> first | rfl | omega

theorem level_neg (f : ProcSet → ProcSet) (n : Int) (bs : List ProcSet) (h : n < 0) :
    level f n bs = ∅ := by
  unfold level
  rw [if_neg (by omega)]
  have := collect_over f n bs ∅ 0 h
  dsimp only
  rw [if_neg (by omega)]

theorem findNH_last (itvs : ProcSet) (sub : List ProcSet) (n m : Int) (top : List ProcSet) :
    findNH itvs [sub] [n, m] top =
      some (level (fun b => extractN itvs (childrenOf b sub true) m) n (keepNoEmpty itvs top)) := by
  simp only [findNH, level, childrenOf, if_true]
  split
  · rfl
  · split
    · simp_all
    · simp_all

theorem findNH_inter (itvs : ProcSet) (sub sub' : List ProcSet) (rest : List (List ProcSet))
    (n n' : Int) (ns : List Int) (top : List ProcSet) :
    findNH itvs (sub :: sub' :: rest) (n :: n' :: ns) top =
      some (level (fun b => (findNH itvs (sub' :: rest) (n' :: ns) (childrenOf b sub false)).getD ∅) n
        (keepNoEmpty itvs top)) := by
  simp only [findNH, level, childrenOf, Bool.false_eq_true, if_false]
  split
  · rfl
  · split
    · simp_all
    · simp_all

/-- total version of the search below the top level, used in proofs: all lengths match -/
theorem bigUnion_ne_empty {l : List ProcSet} : bigUnion l ≠ ∅ ↔ ∃ x ∈ l, x ≠ ∅ := by
  simp only [← Finset.nonempty_iff_ne_empty]
  constructor
  · rintro ⟨r, hr⟩
    obtain ⟨x, hx, h⟩ := mem_bigUnion.1 hr
    exact ⟨x, hx, ⟨r, h⟩⟩
  · rintro ⟨x, hx, ⟨r, hr⟩⟩
    exact ⟨r, mem_bigUnion.2 ⟨x, hx, hr⟩⟩

theorem bigUnion_subset {l : List ProcSet} {a : ProcSet} (h : ∀ x ∈ l, x ⊆ a) : bigUnion l ⊆ a := by
  intro r hr
  obtain ⟨x, hx, h'⟩ := mem_bigUnion.1 hr
  exact h x hx h'

theorem granted_subset (avail : ProcSet) : ∀ (lower : List (List ProcSet)) (rqts : List Int)
    (top : List ProcSet) (r : ProcSet), Granted avail lower rqts top r → r ⊆ avail
  | [], [n], top, r, h => by
    obtain ⟨S, _, _, h3, rfl⟩ := h
    exact bigUnion_subset h3
  | sub :: rest, n :: ns, top, r, h => by
    obtain ⟨c, _, _, h3, rfl⟩ := h
    apply bigUnion_subset
    intro x hx
    obtain ⟨p, hp, rfl⟩ := List.mem_map.1 hx
    exact granted_subset avail rest ns _ _ (h3 p hp).2
  | [], [], _, _, h => h.elim
  | [], _ :: _ :: _, _, _, h => h.elim
  | _ :: _, [], _, _, h => h.elim

theorem granted_mono {avail avail' : ProcSet} (hs : avail ⊆ avail') :
    ∀ (lower : List (List ProcSet)) (rqts : List Int)
    (top : List ProcSet) (r : ProcSet), Granted avail lower rqts top r → Granted avail' lower rqts top r
  | [], [n], top, r, h => by
    obtain ⟨S, h1, h2, h3, h4⟩ := h
    exact ⟨S, h1, h2, fun b hb => (h3 b hb).trans hs, h4⟩
  | sub :: rest, n :: ns, top, r, h => by
    obtain ⟨c, h1, h2, h3, h4⟩ := h
    exact ⟨c, h1, h2, fun p hp => ⟨(h3 p hp).1, granted_mono hs rest ns _ _ (h3 p hp).2⟩, h4⟩
  | [], [], _, _, h => h.elim
  | [], _ :: _ :: _, _, _, h => h.elim
  | _ :: _, [], _, _, h => h.elim

/-- A granted allocation is included in the union of the top blocks. -/
theorem granted_in_top (avail : ProcSet) : ∀ (lower : List (List ProcSet)) (rqts : List Int)
    (top : List ProcSet) (r : ProcSet), Granted avail lower rqts top r → r ⊆ bigUnion top
  | [], [n], top, r, h => by
    obtain ⟨S, h1, _, _, rfl⟩ := h
    intro x hx
    obtain ⟨b, hb, hx⟩ := mem_bigUnion.1 hx
    exact mem_bigUnion.2 ⟨b, h1.subset hb, hx⟩
  | sub :: rest, n :: ns, top, r, h => by
    obtain ⟨c, h1, _, h3, rfl⟩ := h
    intro x hx
    obtain ⟨y, hy, hx⟩ := mem_bigUnion.1 hx
    obtain ⟨p, hp, rfl⟩ := List.mem_map.1 hy
    have := granted_in_top avail rest ns _ _ (h3 p hp).2 hx
    obtain ⟨z, hz, hxz⟩ := mem_bigUnion.1 this
    refine mem_bigUnion.2 ⟨p.1, h1.subset (List.mem_map.2 ⟨p, hp, rfl⟩), ?_⟩
    unfold childrenOf at hz
    split at hz
    · obtain ⟨w, _, rfl⟩ := List.mem_map.1 hz
      exact (Finset.mem_inter.1 hxz).1
    · have := (List.mem_filter.1 hz).2
      exact (of_decide_eq_true this) hxz
  | [], [], _, _, h => h.elim
  | [], _ :: _ :: _, _, _, h => h.elim
  | _ :: _, [], _, _, h => h.elim

theorem granted_in_block (avail b : ProcSet) (sub : List ProcSet) (last : Bool)
    (lower : List (List ProcSet)) (rqts : List Int) (r : ProcSet)
    (h : Granted avail lower rqts (childrenOf b sub last) r) : r ⊆ b := by
  intro x hx
  obtain ⟨z, hz, hxz⟩ := mem_bigUnion.1 (granted_in_top avail lower rqts _ r h hx)
  unfold childrenOf at hz
  split at hz
  · obtain ⟨w, _, rfl⟩ := List.mem_map.1 hz
    exact (Finset.mem_inter.1 hxz).1
  · exact (of_decide_eq_true (List.mem_filter.1 hz).2) hxz

theorem map_fst_graph (f : ProcSet → ProcSet) (l : List ProcSet) :
    (l.map (fun b => (b, f b))).map Prod.fst = l := by
  induction l with
  | nil => rfl
  | cons a l ih => simp only [List.map_cons, ih]

theorem map_snd_graph (f : ProcSet → ProcSet) (l : List ProcSet) :
    (l.map (fun b => (b, f b))).map Prod.snd = l.map f := by
  induction l with
  | nil => rfl
  | cons a l ih => simp only [List.map_cons, ih]

theorem extractN_granted (avail : ProcSet) (blocks : List ProcSet) (n : Int)
    (h : extractN avail blocks n ≠ ∅) : OneLevel avail blocks n (extractN avail blocks n) := by
  by_cases hn : n < 0
  · exact absurd (extractN_neg avail blocks n hn) h
  · obtain ⟨k, rfl⟩ : ∃ k : Nat, n = k := ⟨n.toNat, by omega⟩
    rw [extractN_nat] at h ⊢
    split at h
    · rename_i hk
      rw [if_pos hk]
      refine ⟨(full avail blocks).take k, (List.take_sublist _ _).trans List.filter_sublist, ?_, ?_, rfl⟩
      · rw [List.length_take]; omega
      · intro b hb
        have := List.mem_of_mem_take hb
        exact of_decide_eq_true (List.mem_filter.1 this).2
    · exact absurd rfl h

theorem level_granted (f : ProcSet → ProcSet) (n : Int) (bs : List ProcSet) (h : level f n bs ≠ ∅) :
    ∃ c : List (ProcSet × ProcSet), (c.map Prod.fst).Sublist bs ∧ (c.length : Int) = n ∧
      (∀ p ∈ c, p.2 = f p.1 ∧ p.2 ≠ ∅) ∧ level f n bs = bigUnion (c.map Prod.snd) := by
  by_cases hn : n < 0
  · exact absurd (level_neg f n bs hn) h
  · obtain ⟨k, rfl⟩ : ∃ k : Nat, n = k := ⟨n.toNat, by omega⟩
    rw [level_nat] at h ⊢
    split at h
    · rename_i hk
      rw [if_pos hk]
      refine ⟨((good f bs).take k).map (fun b => (b, f b)), ?_, ?_, ?_, ?_⟩
      · rw [map_fst_graph]; exact (List.take_sublist _ _).trans List.filter_sublist
      · rw [List.length_map, List.length_take]; omega
      · intro p hp
        obtain ⟨b, hb, rfl⟩ := List.mem_map.1 hp
        have := List.mem_of_mem_take hb
        exact ⟨rfl, of_decide_eq_true (List.mem_filter.1 this).2⟩
      · rw [map_snd_graph]
    · exact absurd rfl h

theorem findNH_granted (avail : ProcSet) : ∀ (lower : List (List ProcSet)) (rqts : List Int)
    (top : List ProcSet) (r : ProcSet), findNH avail lower rqts top = some r → r ≠ ∅ →
    Granted avail lower rqts top r
  | [sub], [n, m], top, r, h, hr => by
    rw [findNH_last] at h
    obtain rfl := Option.some.inj h
    obtain ⟨c, h1, h2, h3, h4⟩ := level_granted _ _ _ hr
    refine ⟨c, h1.trans List.filter_sublist, h2, fun p hp => ⟨(h3 p hp).2, ?_⟩, h4⟩
    have := (h3 p hp).1
    simp only [List.isEmpty_nil, Granted]
    have hne := (h3 p hp).2
    rw [this] at hne ⊢
    exact extractN_granted avail _ m hne
  | sub :: sub' :: rest, n :: n' :: ns, top, r, h, hr => by
    rw [findNH_inter] at h
    obtain rfl := Option.some.inj h
    obtain ⟨c, h1, h2, h3, h4⟩ := level_granted _ _ _ hr
    refine ⟨c, h1.trans List.filter_sublist, h2, fun p hp => ⟨(h3 p hp).2, ?_⟩, h4⟩
    have := (h3 p hp).1
    have hne := (h3 p hp).2
    rw [this] at hne ⊢
    simp only [List.isEmpty_cons]
    cases hq : findNH avail (sub' :: rest) (n' :: ns) (childrenOf p.1 sub false) with
    | none => rw [hq] at hne; exact absurd rfl hne
    | some q =>
      rw [hq] at hne
      exact findNH_granted avail (sub' :: rest) (n' :: ns) _ q hq hne
  | [], _, _, _, h, _ => by simp [findNH] at h
  | [_], [], _, _, h, _ => by simp [findNH] at h
  | [_], [_], _, _, h, _ => by simp [findNH] at h
  | [_], _ :: _ :: _ :: _, _, _, h, _ => by simp [findNH] at h
  | _ :: _ :: _, [], _, _, h, _ => by simp [findNH] at h
  | _ :: _ :: _, [_], _, _, h, _ => by simp [findNH] at h

/-! ### completeness -/

theorem sublist_full_length {avail : ProcSet} {blocks S : List ProcSet} (h1 : S.Sublist blocks)
    (h2 : ∀ b ∈ S, b ⊆ avail) : S.length ≤ (full avail blocks).length := by
  have h3 : S.filter (fun x => decide (x ⊆ avail)) = S :=
    List.filter_eq_self.2 (fun b hb => decide_eq_true (h2 b hb))
  have := (h1.filter (fun x => decide (x ⊆ avail))).length_le
  rw [h3] at this
  exact this

theorem extractN_complete (avail : ProcSet) (blocks : List ProcSet) (n : Int) (r : ProcSet)
    (hne : ∀ b ∈ blocks, b ≠ ∅) (h : OneLevel avail blocks n r) (hr : r ≠ ∅) :
    extractN avail blocks n ≠ ∅ := by
  obtain ⟨S, h1, h2, h3, rfl⟩ := h
  subst h2
  rw [extractN_nat, if_pos (sublist_full_length h1 h3), bigUnion_ne_empty]
  have hS : 0 < S.length := by
    cases S with
    | nil => exact absurd rfl hr
    | cons a l => simp
  have hlen := sublist_full_length h1 h3
  cases hf : full avail blocks with
  | nil => rw [hf, List.length_nil] at hlen; omega
  | cons a l =>
    refine ⟨a, ?_, hne a ?_⟩
    · obtain ⟨k, hk⟩ : ∃ k, S.length = k + 1 := ⟨S.length - 1, by omega⟩
      rw [hk]; simp
    · have : a ∈ full avail blocks := by rw [hf]; simp
      exact (List.mem_filter.1 this).1

theorem childrenOf_ne_empty (b : ProcSet) (sub : List ProcSet) (last : Bool)
    (hne : ∀ x ∈ sub, x ≠ ∅) : ∀ x ∈ childrenOf b sub last, x ≠ ∅ := by
  intro x hx
  unfold childrenOf at hx
  split at hx
  · obtain ⟨w, hw, rfl⟩ := List.mem_map.1 hx
    have := of_decide_eq_true (List.mem_filter.1 hw).2
    rwa [Ne, Finset.card_eq_zero] at this
  · exact hne x (List.mem_filter.1 hx).1

theorem level_complete (f : ProcSet → ProcSet) (n : Int) (itvs : ProcSet) (top : List ProcSet)
    (c : List (ProcSet × ProcSet)) (h1 : (c.map Prod.fst).Sublist top) (h2 : (c.length : Int) = n)
    (hc : c ≠ []) (h3 : ∀ p ∈ c, f p.1 ≠ ∅ ∧ p.1 ∩ itvs ≠ ∅) :
    level f n (keepNoEmpty itvs top) ≠ ∅ := by
  subst h2
  have hk : c.length ≤ (good f (keepNoEmpty itvs top)).length := by
    have e1 : ((c.map Prod.fst).filter (fun x => decide ((x ∩ itvs).card ≠ 0))) = c.map Prod.fst := by
      apply List.filter_eq_self.2
      intro b hb
      obtain ⟨p, hp, rfl⟩ := List.mem_map.1 hb
      apply decide_eq_true
      rw [Ne, Finset.card_eq_zero]; exact (h3 p hp).2
    have e2 : ((c.map Prod.fst).filter (fun b => decide (f b ≠ ∅))) = c.map Prod.fst := by
      apply List.filter_eq_self.2
      intro b hb
      obtain ⟨p, hp, rfl⟩ := List.mem_map.1 hb
      exact decide_eq_true (h3 p hp).1
    have := ((h1.filter (fun x => decide ((x ∩ itvs).card ≠ 0))).filter
      (fun b => decide (f b ≠ ∅))).length_le
    rw [e1, e2, List.length_map] at this
    exact this
  rw [level_nat, if_pos hk, bigUnion_ne_empty]
  have hpos : 0 < c.length := by
    cases c with
    | nil => exact absurd rfl hc
    | cons => simp
  cases hf : good f (keepNoEmpty itvs top) with
  | nil => rw [hf, List.length_nil] at hk; omega
  | cons a l =>
    have ha : a ∈ good f (keepNoEmpty itvs top) := by rw [hf]; simp
    refine ⟨f a, ?_, of_decide_eq_true (List.mem_filter.1 ha).2⟩
    obtain ⟨k, hk'⟩ : ∃ k, c.length = k + 1 := ⟨c.length - 1, by omega⟩
    rw [hk']; simp

theorem inter_ne_empty_of {avail b q : ProcSet} (hq : q ≠ ∅) (h1 : q ⊆ avail) (h2 : q ⊆ b) :
    b ∩ avail ≠ ∅ := by
  obtain ⟨x, hx⟩ := Finset.nonempty_iff_ne_empty.2 hq
  exact Finset.nonempty_iff_ne_empty.1 ⟨x, Finset.mem_inter.2 ⟨h2 hx, h1 hx⟩⟩

theorem findNH_complete (avail : ProcSet) : ∀ (lower : List (List ProcSet)) (rqts : List Int)
    (top : List ProcSet) (r : ProcSet), lower ≠ [] → (∀ l ∈ lower, ∀ b ∈ l, b ≠ ∅) →
    Granted avail lower rqts top r → r ≠ ∅ →
    ∃ r', findNH avail lower rqts top = some r' ∧ r' ≠ ∅
  | [sub], [n, m], top, r, _, hb, h, hr => by
    obtain ⟨c, h1, h2, h3, h4⟩ := h
    rw [findNH_last]
    refine ⟨_, rfl, ?_⟩
    apply level_complete _ n avail top c h1 h2
    · rintro rfl; exact hr h4
    · intro p hp
      have hp3 := h3 p hp
      simp only [List.isEmpty_nil] at hp3
      exact ⟨extractN_complete avail _ m p.2
          (childrenOf_ne_empty p.1 sub true (hb sub (by simp))) hp3.2 hp3.1,
        inter_ne_empty_of hp3.1 (granted_subset _ _ _ _ _ hp3.2) (granted_in_block _ _ _ _ _ _ _ hp3.2)⟩
  | sub :: sub' :: rest, n :: n' :: ns, top, r, _, hb, h, hr => by
    obtain ⟨c, h1, h2, h3, h4⟩ := h
    rw [findNH_inter]
    refine ⟨_, rfl, ?_⟩
    apply level_complete _ n avail top c h1 h2
    · rintro rfl; exact hr h4
    · intro p hp
      have hp3 := h3 p hp
      simp only [List.isEmpty_cons] at hp3
      refine ⟨?_, inter_ne_empty_of hp3.1 (granted_subset _ _ _ _ _ hp3.2)
        (granted_in_block _ _ _ _ _ _ _ hp3.2)⟩
      obtain ⟨r', e, hr'⟩ := findNH_complete avail (sub' :: rest) (n' :: ns) _ p.2 (by simp)
        (fun l hl => hb l (List.mem_cons_of_mem _ hl)) hp3.2 hp3.1
      simpa [e] using hr'
  | [], _, _, _, hl, _, _, _ => absurd rfl hl
  | [_], [], _, _, _, _, h, _ => h.elim
  | [_], [_], _, _, _, _, h, hr => by
    obtain ⟨c, h1, h2, h3, h4⟩ := h
    cases c with
    | nil => exact absurd h4 hr
    | cons p c => exact ((h3 p (by simp)).2).elim
  | [_], _ :: _ :: _ :: _, _, _, _, _, h, hr => by
    obtain ⟨c, h1, h2, h3, h4⟩ := h
    cases c with
    | nil => exact absurd h4 hr
    | cons p c => exact ((h3 p (by simp)).2).elim
  | _ :: _ :: _, [], _, _, _, _, h, _ => h.elim
  | _ :: _ :: _, [_], _, _, _, _, h, hr => by
    obtain ⟨c, h1, h2, h3, h4⟩ := h
    cases c with
    | nil => exact absurd h4 hr
    | cons p c => exact ((h3 p (by simp)).2).elim

theorem countLoop_eq (avail : ProcSet) : ∀ (ref : List ProcSet) (acc : ProcSet) (b : Nat),
    countLoop avail ref acc b = (acc ∪ bigUnion (full avail ref), b + (full avail ref).length)
  | [], acc, b => by simp [countLoop, full, bigUnion]
  | x :: xs, acc, b => by
    unfold countLoop
    by_cases hx : x ⊆ avail
    · have h1 : x = avail ∩ x := (eq_inter_iff_subset avail x).2 hx
      have h2 : full avail (x :: xs) = x :: full avail xs := by simp [full, hx]
      simp only [if_pos h1]
      rw [countLoop_eq avail xs, h2]
      simp only [bigUnion, List.length_cons, ← h1]
      rw [Finset.union_assoc]
      congr 1; omega
    · have h1 : ¬ (x = avail ∩ x) := fun h => hx ((eq_inter_iff_subset avail x).1 h)
      have h2 : full avail (x :: xs) = full avail xs := by simp [full, hx]
      simp only [if_neg h1]
      rw [countLoop_eq avail xs, h2]

theorem halfLoop_eq (avail : ProcSet) : ∀ (ref : List ProcSet) (k : Nat) (acc : ProcSet),
    halfLoop avail ref k acc = acc ∪ bigUnion ((full avail ref).take k)
  | [], k, acc => by simp [halfLoop, full, bigUnion]
  | x :: xs, 0, acc => by simp [halfLoop, bigUnion]
  | x :: xs, k + 1, acc => by
    unfold halfLoop
    rw [if_neg (by omega)]
    by_cases hx : x ⊆ avail
    · have h1 : x = avail ∩ x := (eq_inter_iff_subset avail x).2 hx
      have h2 : full avail (x :: xs) = x :: full avail xs := by simp [full, hx]
      simp only [if_pos h1]
      rw [Nat.add_sub_cancel, halfLoop_eq avail xs k, h2]
      simp only [List.take_succ_cons, bigUnion, ← h1]
      rw [Finset.union_assoc]
    · have h1 : ¬ (x = avail ∩ x) := fun h => hx ((eq_inter_iff_subset avail x).1 h)
      have h2 : full avail (x :: xs) = full avail xs := by simp [full, hx]
      simp only [if_neg h1]
      rw [halfLoop_eq avail xs (k + 1), h2]

theorem full_length_eq_iff (avail : ProcSet) (ref : List ProcSet) :
    ref.length = (full avail ref).length ↔ ∀ b ∈ ref, b ⊆ avail := by
  unfold full
  rw [eq_comm, List.length_filter_eq_length_iff]
  simp

theorem full_eq_of_all (avail : ProcSet) (ref : List ProcSet) (h : ∀ b ∈ ref, b ⊆ avail) :
    full avail ref = ref :=
  List.filter_eq_self.2 (fun b hb => decide_eq_true (h b hb))

end Oar.Hierarchy
