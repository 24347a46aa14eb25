import Verif.HierarchyLemmas

/-!
# Property theorems about hierarchical requests (C05, C06, C07, C12)
-/

namespace Oar.Hierarchy
open Spec

/-! ## C05 : shape of a granted request -/

/-- C05. A non-empty answer to a request (one level with a positive count, or several levels with any
counts) has exactly the requested shape and only contains available resources. -/
theorem findScattered_shape (avail : ProcSet) (top : List ProcSet) (lower : List (List ProcSet))
    (n : Int) (ns : List Int) (r : ProcSet)
    (hlen : ns.length = lower.length) (hn : lower = [] → 0 < n)
    (h : findScattered avail (top :: lower) (n :: ns) = some r) (hr : r ≠ ∅) :
    Granted avail lower (n :: ns) top r ∧ r ⊆ avail := by
  have hg : Granted avail lower (n :: ns) top r := by
    cases lower with
    | nil =>
      have : ns = [] := List.length_eq_zero_iff.1 hlen
      subst this
      simp only [findScattered, if_pos (hn rfl)] at h
      obtain rfl := Option.some.inj h
      exact extractN_granted avail top n hr
    | cons sub rest => exact findNH_granted avail (sub :: rest) (n :: ns) top r h hr
  exact ⟨hg, granted_subset _ _ _ _ _ hg⟩

-- hypotheses met by a concrete two-level request: 1 switch, 2 nodes in it
example : findScattered {1, 2, 3, 4, 5} [[{1, 2}, {3, 4, 5}], [{1}, {2}, {3}, {4, 5}]] [1, 2]
    = some {1, 2} := by decide
example : findScattered {2, 3, 4, 5} [[{1, 2}, {3, 4, 5}], [{1}, {2}, {3}, {4, 5}]] [1, 2]
    = some {3, 4, 5} := by decide
example : findScattered {1, 2, 3, 4, 5, 6, 7, 8}
    [[{1, 2, 3, 4}, {5, 6, 7, 8}], [{1, 2}, {3, 4}, {5, 6}, {7, 8}],
      [{1}, {2}, {3}, {4}, {5}, {6}, {7}, {8}]] [2, 1, 1] = some {1, 5} := by decide

/-- When the hierarchy is nested, the "children" used at the last level are the blocks included in
the parent: no block is ever cut. -/
theorem children_nested (b : ProcSet) (sub : List ProcSet) (h : NestedIn b sub) :
    childrenOf b sub true = sub.filter (fun s => decide (s ⊆ b)) := by
  induction sub with
  | nil => simp [childrenOf]
  | cons x xs ih =>
    have hx := h x (by simp)
    have ih' := ih (fun y hy => h y (List.mem_cons_of_mem _ hy))
    simp only [childrenOf, if_true] at ih' ⊢
    rcases hx.2 with hs | hd
    · have e : b ∩ x = x := Finset.inter_eq_right.2 hs
      have c : (b ∩ x).card ≠ 0 := by rw [e, Ne, Finset.card_eq_zero]; exact hx.1
      rw [List.filter_cons_of_pos (by simpa using c), List.filter_cons_of_pos (by simpa using hs),
        List.map_cons, e, ih']
    · have c : (b ∩ x).card = 0 := by rw [hd]; rfl
      have ns : ¬ x ⊆ b := by
        intro hs
        have e : b ∩ x = x := Finset.inter_eq_right.2 hs
        exact hx.1 (e ▸ hd)
      rw [List.filter_cons_of_neg (by simp [hd]), List.filter_cons_of_neg (by simpa using ns), ih']

example : NestedIn {1, 2} [{1}, {2}, {3}] := by
  intro x hx
  simp only [List.mem_cons, List.not_mem_nil, or_false] at hx
  rcases hx with rfl | rfl | rfl <;> decide

/-- C05. ALL / BEST / HALF_BEST (negative counts) are refused as soon as the request has several levels,
whatever is available. -/
theorem special_multilevel_refused (avail : ProcSet) (top sub : List ProcSet)
    (rest : List (List ProcSet)) (n m : Int) (ns : List Int) (hn : n < 0) (r : ProcSet)
    (h : findScattered avail (top :: sub :: rest) (n :: m :: ns) = some r) : r = ∅ := by
  simp only [findScattered] at h
  by_contra hr
  obtain ⟨c, _, h2, _, _⟩ := findNH_granted avail _ _ _ _ h hr
  omega

example : findScattered {1, 2} [[{1, 2}], [{1}, {2}]] [-1, 1] = some ∅ := by decide

/-! ## C06 : exactness of one-level requests -/

/-- C06. A one-level request for `k > 0` blocks answers the union of the first `k` fully available blocks,
and the empty set when there are fewer. -/
theorem one_level_exact (avail : ProcSet) (blocks : List ProcSet) (k : Nat) (hk : 0 < k) :
    findScattered avail [blocks] [(k : Int)] =
      some (if k ≤ (blocks.filter (fun b => decide (b ⊆ avail))).length
            then bigUnion ((blocks.filter (fun b => decide (b ⊆ avail))).take k) else ∅) := by
  have hk' : (k : Int) > 0 := by omega
  simp only [findScattered, if_pos hk', extractN_nat]
  rfl

/-- C06. On a level without empty block, refusal (empty answer) happens exactly when fewer than `k` blocks
are entirely available. -/
theorem one_level_refused_iff (avail : ProcSet) (blocks : List ProcSet) (k : Nat) (hk : 0 < k)
    (hb : ∀ b ∈ blocks, b ≠ ∅) :
    findScattered avail [blocks] [(k : Int)] = some ∅ ↔
      (blocks.filter (fun b => decide (b ⊆ avail))).length < k := by
  rw [one_level_exact avail blocks k hk]
  constructor
  · intro h
    by_contra hlt
    rw [if_pos (by omega)] at h
    have h' := Option.some.inj h
    have : bigUnion ((blocks.filter (fun b => decide (b ⊆ avail))).take k) ≠ ∅ := by
      rw [bigUnion_ne_empty]
      cases hf : blocks.filter (fun b => decide (b ⊆ avail)) with
      | nil => rw [hf, List.length_nil] at hlt; omega
      | cons a l =>
        have ha : a ∈ blocks.filter (fun b => decide (b ⊆ avail)) := by rw [hf]; simp
        obtain ⟨j, rfl⟩ : ∃ j, k = j + 1 := ⟨k - 1, by omega⟩
        exact ⟨a, by simp, hb a (List.mem_filter.1 ha).1⟩
    exact this h'
  · intro h
    rw [if_neg (by omega)]

example : (∀ b ∈ ([{1, 2}, {3}] : List ProcSet), b ≠ ∅) ∧
    findScattered {2, 3} [[{1, 2}, {3}]] [2] = some ∅ := by decide

/-- C06. ALL is granted exactly when every block is free (and then gives all of them); BEST gives every free
block; HALF_BEST the first half (rounded down) of the free blocks. -/
theorem special_exact (avail : ProcSet) (blocks : List ProcSet) (hb : blocks ≠ []) :
    findScattered avail [blocks] [-1] =
        some (if ∀ b ∈ blocks, b ⊆ avail then bigUnion blocks else ∅) ∧
    findScattered avail [blocks] [-2] =
        some (bigUnion (blocks.filter (fun b => decide (b ⊆ avail)))) ∧
    findScattered avail [blocks] [-3] =
        some (bigUnion ((blocks.filter (fun b => decide (b ⊆ avail))).take
          ((blocks.filter (fun b => decide (b ⊆ avail))).length / 2))) := by
  have he : blocks.isEmpty = false := by
    cases blocks with
    | nil => exact absurd rfl hb
    | cons => rfl
  refine ⟨?_, ?_, ?_⟩
  · simp only [findScattered, extractSpecial, he, countLoop_eq, Finset.empty_union, Nat.zero_add,
      full_length_eq_iff]
    by_cases h : ∀ b ∈ blocks, b ⊆ avail
    · simp only [full_eq_of_all avail blocks h]
      simp [if_pos h]
    · simp [h]
  · simp [findScattered, extractSpecial, he, countLoop_eq, full]
  · simp [findScattered, extractSpecial, he, countLoop_eq, halfLoop_eq, full]

example : findScattered {1, 2, 3, 4, 6} [[{1}, {2}, {3}, {4}, {5}, {6}]] [-3] = some {1, 2} := by decide

/-- C06. The documented example of `extract_all_best_half_scattered_block_itv` raises on an empty level:
the only input on which a one-level special request has no answer. -/
theorem special_empty_level_raises (avail : ProcSet) (n : Int) (hn : n ≤ 0) :
    findScattered avail [[]] [n] = none := by
  have : ¬ n > 0 := by omega
  simp [findScattered, extractSpecial, this]

/-- C06 (several levels). On a hierarchy without empty block the search is complete: it finds a non-empty
allocation exactly when one of the requested shape exists. -/
theorem findScattered_complete (avail : ProcSet) (top : List ProcSet) (lower : List (List ProcSet))
    (n : Int) (ns : List Int) (hlen : ns.length = lower.length) (hn : lower = [] → 0 < n)
    (htop : ∀ b ∈ top, b ≠ ∅) (hb : ∀ l ∈ lower, ∀ b ∈ l, b ≠ ∅) :
    (∃ r, r ≠ ∅ ∧ Granted avail lower (n :: ns) top r) ↔
    (∃ r, findScattered avail (top :: lower) (n :: ns) = some r ∧ r ≠ ∅) := by
  constructor
  · rintro ⟨r, hr, hg⟩
    cases lower with
    | nil =>
      have : ns = [] := List.length_eq_zero_iff.1 hlen
      subst this
      refine ⟨extractN avail top n, ?_, extractN_complete avail top n r htop hg hr⟩
      simp only [findScattered, if_pos (hn rfl)]
    | cons sub rest =>
      exact findNH_complete avail (sub :: rest) (n :: ns) top r (by simp) hb hg hr
  · rintro ⟨r, h, hr⟩
    exact ⟨r, hr, (findScattered_shape avail top lower n ns r hlen hn h hr).1⟩

example : (∀ b ∈ ([{1, 2}, {3, 4}] : List ProcSet), b ≠ ∅) ∧
    (∃ r, findScattered {2, 3, 4} [[{1, 2}, {3, 4}], [{1}, {2}, {3}, {4}]] [1, 2] = some r ∧ r ≠ ∅) :=
  ⟨by decide, {3, 4}, by decide, by decide⟩

/-! ## C07 : monotonicity -/

/-- C07. If a request is satisfiable from `avail` it is satisfiable from every larger set. -/
theorem findScattered_mono (avail avail' : ProcSet) (hs : avail ⊆ avail') (top : List ProcSet)
    (lower : List (List ProcSet)) (n : Int) (ns : List Int) (hlen : ns.length = lower.length)
    (hn : lower = [] → 0 < n) (htop : ∀ b ∈ top, b ≠ ∅) (hb : ∀ l ∈ lower, ∀ b ∈ l, b ≠ ∅)
    (h : ∃ r, findScattered avail (top :: lower) (n :: ns) = some r ∧ r ≠ ∅) :
    ∃ r, findScattered avail' (top :: lower) (n :: ns) = some r ∧ r ≠ ∅ := by
  rw [← findScattered_complete avail' top lower n ns hlen hn htop hb]
  obtain ⟨r, hr, hg⟩ := (findScattered_complete avail top lower n ns hlen hn htop hb).2 h
  exact ⟨r, hr, granted_mono hs _ _ _ _ hg⟩

/-! ## C12 : groups of one request -/

/-- C12 is violated: the two groups of `nodes=1 + nodes=1` receive the same node although another one is
free, so the job gets one node instead of two. -/
theorem groups_disjoint_violated :
    ∃ (avail : ProcSet) (hy : Hy) (g : Group) (r : ProcSet),
      findGroup avail hy g = some r ∧ r ≠ ∅ ∧
      findJob avail [g, g] hy = some r ∧
      -- although two disjoint allocations existed
      (∃ r₂, r₂ ≠ ∅ ∧ Disjoint r r₂ ∧ r₂ ⊆ avail ∧ OneLevel avail [{1}, {2}] 1 r₂ ∧
        hy.lookup "node" = some [{1}, {2}] ∧ g.levels = [("node", 1)]) := by
  refine ⟨{1, 2}, [("node", [{1}, {2}])], ⟨[("node", 1)], {1, 2}⟩, {1}, by decide, by decide, by decide,
    {2}, by decide, by decide, by decide, ⟨[{2}], by decide, by decide, by decide, by decide⟩,
    by decide, rfl⟩

theorem findScattered_subset (avail : ProcSet) (top : List ProcSet) (lower : List (List ProcSet))
    (n : Int) (ns : List Int) (r : ProcSet) 
    (h : findScattered avail (top :: lower) (n :: ns) = some r) : r ⊆ avail := by
  by_cases hr : r = ∅
  · rw [hr]; exact Finset.empty_subset _
  · cases lower with
    | nil =>
      simp only [findScattered] at h
      split at h
      · obtain rfl := Option.some.inj h
        have := extractN_granted avail top n hr
        obtain ⟨S, _, _, h3, h4⟩ := this
        rw [h4]; exact bigUnion_subset h3
      · have hf : ∀ k, bigUnion ((full avail top).take k) ⊆ avail := fun k => by
          apply bigUnion_subset
          intro b hb
          exact of_decide_eq_true (List.mem_filter.1 (List.mem_of_mem_take hb)).2
        have hf' : bigUnion (full avail top) ⊆ avail := by
          have := hf (full avail top).length
          rwa [List.take_length] at this
        simp only [extractSpecial, countLoop_eq, halfLoop_eq, Finset.empty_union] at h
        split at h
        · exact absurd h (by simp)
        · split at h
          · obtain rfl := Option.some.inj h; exact hf'
          · split at h
            · obtain rfl := Option.some.inj h; exact hf'
            · split at h
              · obtain rfl := Option.some.inj h; exact hf _
              · obtain rfl := Option.some.inj h; exact absurd rfl hr
    | cons sub rest =>
      simp only [findScattered] at h
      exact granted_subset _ _ _ _ _ (findNH_granted avail _ _ _ _ h hr)

/-- The resources found for a group satisfy the group's properties and are available. -/
theorem findGroup_subset (avail : ProcSet) (hy : Hy) (g : Group) (r : ProcSet)
    (h : findGroup avail hy g = some r) : r ⊆ g.constraints ∩ avail := by
  obtain ⟨levels, cs⟩ := g
  unfold findGroup at h
  split at h
  · exact absurd h (by simp)
  · rename_i ls hl
    cases levels with
    | nil =>
      simp only [lookupLevels, Option.some.injEq] at hl
      subst hl
      simp [findScattered] at h
    | cons p ps =>
      obtain ⟨l, n⟩ := p
      simp only [lookupLevels] at hl
      split at hl
      · obtain rfl := Option.some.inj hl
        exact findScattered_subset _ _ _ _ _ r h
      · exact absurd hl (by simp)

theorem findJobLoop_spec (avail : ProcSet) (hy : Hy) : ∀ (gs : List Group) (acc r : ProcSet),
    findJobLoop avail hy gs acc = some r → r ≠ ∅ →
    ∃ parts : List ProcSet, parts.length = gs.length ∧ r = acc ∪ bigUnion parts ∧
      ∀ p ∈ gs.zip parts, findGroup avail hy p.1 = some p.2 ∧ p.2 ≠ ∅
  | [], acc, r, h, _ => by
    simp only [findJobLoop, Option.some.injEq] at h
    exact ⟨[], rfl, by simp [bigUnion, h], by simp⟩
  | g :: gs, acc, r, h, hr => by
    unfold findJobLoop at h
    split at h
    · exact absurd h (by simp)
    · rename_i res hg
      split at h
      · rename_i hc
        obtain ⟨parts, h1, h2, h3⟩ := findJobLoop_spec avail hy gs (acc ∪ res) r h hr
        refine ⟨res :: parts, by simp [h1], ?_, ?_⟩
        · rw [h2, bigUnion, Finset.union_assoc]
        · intro p hp
          simp only [List.zip_cons_cons, List.mem_cons] at hp
          rcases hp with rfl | hp
          · refine ⟨hg, ?_⟩
            rwa [Ne, Finset.card_eq_zero] at hc
          · exact h3 p hp
      · obtain rfl := Option.some.inj h
        exact absurd rfl hr

/-- A granted job request only contains available resources. -/
theorem findJob_subset (avail : ProcSet) (hy : Hy) (gs : List Group) (r : ProcSet)
    (h : findJob avail gs hy = some r) : r ⊆ avail := by
  by_cases hr : r = ∅
  · rw [hr]; exact Finset.empty_subset _
  · obtain ⟨parts, hl, h2, h3⟩ := findJobLoop_spec avail hy gs ∅ r h hr
    rw [h2, Finset.empty_union]
    apply bigUnion_subset
    intro x hx
    obtain ⟨i, hi, rfl⟩ := List.getElem_of_mem hx
    have hi' : i < gs.length := by omega
    have hm : (gs[i], parts[i]) ∈ gs.zip parts := by
      rw [List.mem_iff_getElem]
      exact ⟨i, by simp [hl]; omega, by simp⟩
    exact (findGroup_subset _ _ _ _ (h3 _ hm).1).trans Finset.inter_subset_right

/-- C12 (what holds): a granted request is the union of one non-empty part per group, each being that
group's own allocation inside the group's eligible resources. When the groups' eligible
resources are pairwise disjoint the parts are pairwise disjoint.
Missing for the full C12: groups whose eligible resources overlap (see
`groups_disjoint_violated`). -/
theorem groups_disjoint_partial (avail : ProcSet) (hy : Hy) (gs : List Group) (r : ProcSet)
    (h : findJob avail gs hy = some r) (hr : r ≠ ∅)
    (hd : gs.Pairwise (fun a b => Disjoint a.constraints b.constraints)) :
    ∃ parts : List ProcSet, parts.length = gs.length ∧ r = bigUnion parts ∧
      (∀ p ∈ gs.zip parts, findGroup avail hy p.1 = some p.2 ∧ p.2 ≠ ∅ ∧ p.2 ⊆ p.1.constraints ∩ avail) ∧
      parts.Pairwise Disjoint := by
  obtain ⟨parts, h1, h2, h3⟩ := findJobLoop_spec avail hy gs ∅ r h hr
  refine ⟨parts, h1, by rw [h2, Finset.empty_union],
    fun p hp => ⟨(h3 p hp).1, (h3 p hp).2, findGroup_subset _ _ _ _ (h3 p hp).1⟩, ?_⟩
  clear h2 h hr
  induction gs generalizing parts with
  | nil =>
    have : parts = [] := List.length_eq_zero_iff.1 h1
    subst this; exact List.Pairwise.nil
  | cons g gs ih =>
    cases parts with
    | nil => simp at h1
    | cons q qs =>
      simp only [List.length_cons, Nat.add_right_cancel_iff] at h1
      rw [List.pairwise_cons] at hd ⊢
      refine ⟨?_, ih hd.2 qs h1 (fun p hp => h3 p (by simp [hp]))⟩
      intro q' hq'
      obtain ⟨i, hi, rfl⟩ := List.getElem_of_mem hq'
      have hi' : i < gs.length := by omega
      have hm : (gs[i], qs[i]) ∈ gs.zip qs := by
        rw [List.mem_iff_getElem]
        exact ⟨i, by simp [h1]; omega, by simp⟩
      have e1 := findGroup_subset _ _ _ _ (h3 (g, q) (by simp)).1
      have e2 := findGroup_subset _ _ _ _ (h3 (gs[i], qs[i]) (by
        rw [List.zip_cons_cons]; exact List.mem_cons_of_mem _ hm)).1
      have := hd.1 gs[i] (List.getElem_mem hi')
      exact Finset.disjoint_of_subset_left (e1.trans Finset.inter_subset_left)
        (Finset.disjoint_of_subset_right (e2.trans Finset.inter_subset_left) this)

example : findJob {1, 2, 3, 4} [⟨[("node", 1)], {1, 2}⟩, ⟨[("node", 2)], {3, 4}⟩]
    [("node", [{1}, {2}, {3}, {4}])] = some {1, 3, 4} := by decide

/-- The levels of a group are known and without empty block; a single level with a non-positive count (ALL, BEST,
HALF) has at least one block. -/
def GroupOk (hy : Hy) (g : Group) : Prop :=
  ∃ top lower n ns, lookupLevels hy g.levels = some (top :: lower) ∧ g.levels.map Prod.snd = n :: ns ∧
    ns.length = lower.length ∧ (lower = [] → 0 < n ∨ top ≠ []) ∧ (∀ b ∈ top, b ≠ ∅) ∧
    (∀ l ∈ lower, ∀ b ∈ l, b ≠ ∅)

theorem findNH_isSome (avail : ProcSet) : ∀ (lower : List (List ProcSet)) (n : Int) (ns : List Int)
    (top : List ProcSet), lower ≠ [] → ns.length = lower.length → ∃ r, findNH avail lower (n :: ns) top = some r
  | [], _, _, _, h, _ => absurd rfl h
  | [sub], n, [m], top, _, _ => ⟨_, findNH_last avail sub n m top⟩
  | sub :: sub' :: rest, n, n' :: ns, top, _, _ => ⟨_, findNH_inter avail sub sub' rest n n' ns top⟩
  | [_], _, [], _, _, h => by simp at h
  | [_], _, _ :: _ :: _, _, _, h => by simp at h
  | _ :: _ :: _, _, [], _, _, h => by simp at h

/-- Under `GroupOk`-like hypotheses the search never raises. -/
theorem findScattered_isSome (avail : ProcSet) (top : List ProcSet) (lower : List (List ProcSet))
    (n : Int) (ns : List Int) (hlen : ns.length = lower.length) (hn : lower = [] → 0 < n ∨ top ≠ []) :
    ∃ r, findScattered avail (top :: lower) (n :: ns) = some r := by
  cases lower with
  | nil =>
    simp only [findScattered]
    by_cases h0 : n > 0
    · exact ⟨_, by rw [if_pos h0]⟩
    · rw [if_neg h0]
      have ht : top ≠ [] := by rcases hn rfl with h | h
                               · omega
                               · exact h
      have he : top.isEmpty = false := by cases top with
        | nil => exact absurd rfl ht
        | cons _ _ => rfl
      unfold extractSpecial
      rw [he]
      simp only [Bool.false_eq_true, if_false]
      split
      · exact ⟨_, rfl⟩
      · split
        · exact ⟨_, rfl⟩
        · split <;> exact ⟨_, rfl⟩
  | cons sub rest => 
    simp only [findScattered]
    exact findNH_isSome avail (sub :: rest) n ns top (by simp) hlen

/-- C06 (general form). The search answers a non-empty allocation exactly when one exists. -/
theorem findScattered_sat (avail : ProcSet) (top : List ProcSet) (lower : List (List ProcSet))
    (n : Int) (ns : List Int) (hlen : ns.length = lower.length) (hn : lower = [] → 0 < n ∨ top ≠ [])
    (htop : ∀ b ∈ top, b ≠ ∅) (hb : ∀ l ∈ lower, ∀ b ∈ l, b ≠ ∅) :
    (∃ r, findScattered avail (top :: lower) (n :: ns) = some r ∧ r ≠ ∅) ↔ SatLevels avail top lower n ns := by
  by_cases hsp : lower = [] ∧ n ≤ 0
  · obtain ⟨rfl, hn0⟩ := hsp
    have : ns = [] := List.length_eq_zero_iff.1 hlen
    subst this
    have ht : top ≠ [] := by
      rcases hn rfl with h | h
      · omega
      · exact h
    obtain ⟨e1, e2, e3⟩ := special_exact avail top ht
    have hne : bigUnion top ≠ ∅ := by
      rw [bigUnion_ne_empty]
      cases top with
      | nil => exact absurd rfl ht
      | cons b t => exact ⟨b, by simp, htop b (by simp)⟩
    by_cases h1 : n = -1
    · subst h1
      rw [e1]
      simp only [SatLevels, Option.some.injEq, true_and, exists_eq_left']
      by_cases hall : ∀ b ∈ top, b ⊆ avail
      · simp only [if_pos hall]
        exact ⟨fun _ => Or.inr (Or.inl ⟨ht, hall⟩), fun _ => hne⟩
      · simp only [if_neg hall]
        constructor
        · intro h; exact absurd rfl h
        · rintro (h | ⟨_, h⟩ | h | h)
          · exact absurd (by omega) h.1
          · exact absurd h hall
          · omega
          · omega
    · by_cases h2 : n = -2
      · subst h2
        rw [e2]
        simp only [SatLevels, Option.some.injEq, true_and, exists_eq_left', bigUnion_ne_empty, List.mem_filter,
          decide_eq_true_eq]
        constructor
        · rintro ⟨b, ⟨h3, h4⟩, _⟩
          exact Or.inr (Or.inr (Or.inl ⟨b, h3, h4⟩))
        · rintro (h | h | ⟨b, h3, h4⟩ | h)
          · exact absurd (by omega) h.1
          · omega
          · exact ⟨b, ⟨h3, h4⟩, htop b h3⟩
          · omega
      · by_cases h3 : n = -3
        · subst h3
          rw [e3]
          simp only [SatLevels, Option.some.injEq, true_and, exists_eq_left', bigUnion_ne_empty]
          constructor
          · rintro ⟨b, hbm, _⟩
            refine Or.inr (Or.inr (Or.inr ?_))
            have := List.length_pos_of_mem hbm
            rw [List.length_take] at this
            omega
          · rintro (h | h | h | h)
            · exact absurd (by omega) h.1
            · omega
            · omega
            · have hl : 0 < ((top.filter (fun b => decide (b ⊆ avail))).take
                  ((top.filter (fun b => decide (b ⊆ avail))).length / 2)).length := by
                rw [List.length_take]; omega
              obtain ⟨b, hbm⟩ := List.exists_mem_of_length_pos hl
              exact ⟨b, hbm, htop b (List.mem_of_mem_filter (List.mem_of_mem_take hbm))⟩
        · constructor
          · rintro ⟨r, hr, hne'⟩
            simp only [findScattered] at hr
            rw [if_neg (by omega)] at hr
            unfold extractSpecial at hr
            have he : top.isEmpty = false := by cases top with
              | nil => exact absurd rfl ht
              | cons _ _ => rfl
            rw [he] at hr
            simp only [Bool.false_eq_true, if_false] at hr
            rw [if_neg (by omega), if_neg h2, if_neg h3] at hr
            exact absurd (Option.some.inj hr).symm hne'
          · rintro (h | h | h | h)
            · exact absurd (by exact ⟨rfl, hn0⟩) h.1
            · omega
            · omega
            · omega
  · have hn' : lower = [] → 0 < n := fun h => by
      by_contra h0
      exact hsp ⟨h, by omega⟩
    rw [← findScattered_complete avail top lower n ns hlen hn' htop hb]
    constructor
    · exact fun h => Or.inl ⟨hsp, h⟩
    · rintro (h | h | h | h)
      · exact h.2
      · have := hn' h.1; omega
      · have := hn' h.1; omega
      · have := hn' h.1; omega

theorem satLevels_mono {avail avail' : ProcSet} (hs : avail ⊆ avail') {top : List ProcSet}
    {lower : List (List ProcSet)} {n : Int} {ns : List Int} (h : SatLevels avail top lower n ns) :
    SatLevels avail' top lower n ns := by
  rcases h with ⟨h1, r, h2, h3⟩ | ⟨h1, h2, h3, h4⟩ | ⟨h1, h2, b, h3, h4⟩ | ⟨h1, h2, h3⟩
  · exact Or.inl ⟨h1, r, h2, granted_mono hs _ _ _ _ h3⟩
  · exact Or.inr (Or.inl ⟨h1, h2, h3, fun b hb => (h4 b hb).trans hs⟩)
  · exact Or.inr (Or.inr (Or.inl ⟨h1, h2, b, h3, h4.trans hs⟩))
  · refine Or.inr (Or.inr (Or.inr ⟨h1, h2, h3.trans ?_⟩))
    apply List.Sublist.length_le
    apply List.monotone_filter_right
    intro b hb
    simp only [decide_eq_true_eq] at hb ⊢
    exact hb.trans hs

/-- An allocation exists for one group in `avail`. -/
def SatGroup (hy : Hy) (avail : ProcSet) (g : Group) : Prop :=
  ∃ top lower n ns, lookupLevels hy g.levels = some (top :: lower) ∧ g.levels.map Prod.snd = n :: ns ∧
    SatLevels (g.constraints ∩ avail) top lower n ns

/-- An allocation exists for each of the groups of a request. -/
def Satisfiable (hy : Hy) (groups : List Group) (avail : ProcSet) : Prop :=
  groups ≠ [] ∧ ∀ g ∈ groups, SatGroup hy avail g

theorem findGroup_sat (avail : ProcSet) (hy : Hy) (g : Group) (hok : GroupOk hy g) :
    (∃ r, findGroup avail hy g = some r ∧ r ≠ ∅) ↔ SatGroup hy avail g := by
  obtain ⟨top, lower, n, ns, h1, h2, h3, h4, h5, h6⟩ := hok
  simp only [findGroup, h1, h2, SatGroup]
  rw [findScattered_sat _ top lower n ns h3 h4 h5 h6]
  constructor
  · exact fun h => ⟨top, lower, n, ns, rfl, rfl, h⟩
  · rintro ⟨top', lower', n', ns', e1, e2, h⟩
    simp only [Option.some.injEq, List.cons.injEq] at e1 e2
    obtain ⟨rfl, rfl⟩ := e1
    obtain ⟨rfl, rfl⟩ := e2
    exact h

theorem findGroup_isSome (avail : ProcSet) (hy : Hy) (g : Group) (hok : GroupOk hy g) :
    ∃ r, findGroup avail hy g = some r := by
  obtain ⟨top, lower, n, ns, h1, h2, h3, h4, h5, h6⟩ := hok
  simp only [findGroup, h1, h2]
  exact findScattered_isSome _ top lower n ns h3 h4

theorem satisfiable_mono {avail avail' : ProcSet} (hs : avail ⊆ avail') {hy : Hy} {groups : List Group}
    (h : Satisfiable hy groups avail) : Satisfiable hy groups avail' := by
  refine ⟨h.1, fun g hg => ?_⟩
  obtain ⟨top, lower, n, ns, h1, h2, h3⟩ := h.2 g hg
  exact ⟨top, lower, n, ns, h1, h2, satLevels_mono (Finset.inter_subset_inter_left hs) h3⟩

theorem findGroup_mono {avail avail' : ProcSet} (hs : avail ⊆ avail') (hy : Hy) (g : Group)
    (hok : GroupOk hy g) (h : ∃ r, findGroup avail hy g = some r ∧ r ≠ ∅) :
    ∃ r, findGroup avail' hy g = some r ∧ r ≠ ∅ := by
  rw [findGroup_sat _ _ _ hok] at h ⊢
  obtain ⟨top, lower, n, ns, h1, h2, h3⟩ := h
  exact ⟨top, lower, n, ns, h1, h2, satLevels_mono (Finset.inter_subset_inter_left hs) h3⟩

/-- C06 for whole requests: a request made of well-formed groups is answered (never an exception), and the answer is
non-empty exactly when an allocation exists for each group. -/
theorem findJob_sat (avail : ProcSet) (hy : Hy) (gs : List Group) (hok : ∀ g ∈ gs, GroupOk hy g) :
    ∃ r, findJob avail gs hy = some r ∧ (r ≠ ∅ ↔ Satisfiable hy gs avail) := by
  suffices H : ∀ (gs : List Group) (acc : ProcSet), (∀ g ∈ gs, GroupOk hy g) →
      ∃ r, findJobLoop avail hy gs acc = some r ∧
        (r ≠ ∅ ↔ (acc ≠ ∅ ∨ gs ≠ []) ∧ ∀ g ∈ gs, SatGroup hy avail g) by
    obtain ⟨r, h1, h2⟩ := H gs ∅ hok
    exact ⟨r, h1, by rw [h2]; simp [Satisfiable]⟩
  clear hok gs
  intro gs
  induction gs with
  | nil => intro acc _; exact ⟨acc, rfl, by simp⟩
  | cons g gs ih =>
    intro acc hok
    obtain ⟨res, hres⟩ := findGroup_isSome avail hy g (hok g (by simp))
    have hsat := findGroup_sat avail hy g (hok g (by simp))
    simp only [findJobLoop, hres]
    by_cases hc : res.card ≠ 0
    · rw [if_pos hc]
      have hne : res ≠ ∅ := by rwa [Ne, Finset.card_eq_zero] at hc
      obtain ⟨r, h1, h2⟩ := ih (acc ∪ res) (fun g hg => hok g (List.mem_cons_of_mem _ hg))
      refine ⟨r, h1, ?_⟩
      rw [h2]
      have hacc : acc ∪ res ≠ ∅ := by
        rw [← Finset.nonempty_iff_ne_empty] at hne ⊢
        exact hne.mono Finset.subset_union_right
      have := hsat.1 ⟨res, hres, hne⟩
      constructor
      · rintro ⟨_, h⟩
        exact ⟨Or.inr (by simp), by simpa using ⟨this, h⟩⟩
      · rintro ⟨_, h⟩
        exact ⟨Or.inl hacc, fun g' hg' => h g' (List.mem_cons_of_mem _ hg')⟩
    · rw [if_neg hc]
      refine ⟨∅, rfl, ?_⟩
      constructor
      · intro h; exact absurd rfl h
      · rintro ⟨_, h⟩
        obtain ⟨r, h1, h2⟩ := hsat.2 (h g (by simp))
        rw [hres, Option.some.injEq] at h1
        subst h1
        rw [not_not, Finset.card_eq_zero] at hc
        exact absurd hc h2

/-- C07 at the level of whole requests: if a job request is satisfiable from `avail` it is satisfiable from
every larger set. -/
theorem findJob_mono (avail avail' : ProcSet) (hs : avail ⊆ avail') (hy : Hy) (gs : List Group)
    (hok : ∀ g ∈ gs, GroupOk hy g) (h : ∃ r, findJob avail gs hy = some r ∧ r ≠ ∅) :
    ∃ r, findJob avail' gs hy = some r ∧ r ≠ ∅ := by
  suffices H : ∀ (gs : List Group) (acc acc' : ProcSet), (∀ g ∈ gs, GroupOk hy g) →
      (acc ≠ ∅ → acc' ≠ ∅) →
      (∃ r, findJobLoop avail hy gs acc = some r ∧ r ≠ ∅) →
      ∃ r, findJobLoop avail' hy gs acc' = some r ∧ r ≠ ∅ from
    H gs ∅ ∅ hok (fun h => h) h
  clear h hok gs
  intro gs
  induction gs with
  | nil =>
    rintro acc acc' _ hacc ⟨r, h, hr⟩
    simp only [findJobLoop, Option.some.injEq] at h
    subst h
    exact ⟨acc', by simp [findJobLoop], hacc hr⟩
  | cons g gs ih =>
    rintro acc acc' hok hacc ⟨r, h, hr⟩
    unfold findJobLoop at h ⊢
    split at h
    · exact absurd h (by simp)
    · rename_i res hg
      split at h
      · rename_i hc
        rw [Ne, Finset.card_eq_zero] at hc
        obtain ⟨res', hg', hne'⟩ := findGroup_mono hs hy g (hok g (by simp)) ⟨res, hg, hc⟩
        rw [hg']
        have : res'.card ≠ 0 := by rwa [Ne, Finset.card_eq_zero]
        simp only [if_pos this]
        apply ih (acc ∪ res) _ (fun g hg => hok g (List.mem_cons_of_mem _ hg)) _ ⟨r, h, hr⟩
        intro _
        rw [← Finset.nonempty_iff_ne_empty] at hne' ⊢
        exact hne'.mono Finset.subset_union_right
      · obtain rfl := Option.some.inj h
        exact absurd rfl hr

example : GroupOk [("node", [{1, 2}, {3}])] ⟨[("node", 1)], {1, 2, 3}⟩ :=
  ⟨[{1, 2}, {3}], [], 1, [], by decide, rfl, rfl, by decide, by decide, by simp⟩

-- BEST on one level
example : GroupOk [("node", [{1, 2}, {3}])] ⟨[("node", -2)], {1, 2, 3}⟩ ∧
    findJob {1, 2} [⟨[("node", -2)], {1, 2, 3}⟩] [("node", [{1, 2}, {3}])] = some {1, 2} :=
  ⟨⟨[{1, 2}, {3}], [], -2, [], by decide, rfl, rfl, by decide, by decide, by simp⟩, by decide⟩

end Oar.Hierarchy
