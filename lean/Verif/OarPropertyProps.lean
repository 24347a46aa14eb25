import Verif.OarPropertySpec
import Verif.ToolsProps

namespace Oar.OarProperty

open Oar.Tools

theorem good_refused {n : String} (h : Good n) : refused n = false := by
  unfold refused
  have : n.toList.all (fun c => decide (c.toNat < 128)) = true := List.all_eq_true.2 (fun c hc => by simpa using h.1 c hc)
  rw [this]; simp [h.2]

theorem refused_good {n : String} (h : refused n = false) : Good n := by
  unfold refused at h
  simp only [Bool.or_eq_false_iff, Bool.not_eq_false', decide_eq_false_iff_not] at h
  exact ⟨fun c hc => by simpa using List.all_eq_true.1 h.1 c hc, h.2⟩

theorem lstrip_self {n : String} (h : ¬ Blank n) : lstrip n = n := by
  unfold lstrip
  cases hl : n.toList with
  | nil => rw [show n = "" from String.ext hl]; rfl
  | cons c cs =>
    have : (c = ' ' || c = '\t' || c = '\n' || c = '\r') = false := by
      cases hb : (c = ' ' || c = '\t' || c = '\n' || c = '\r') with
      | false => rfl
      | true =>
        exfalso; apply h
        refine ⟨c, by rw [hl]; rfl, ?_⟩
        simpa [or_assoc] using hb
    rw [List.dropWhile_cons_of_neg (by rw [this]; exact Bool.false_ne_true), ← hl, String.ofList_toList]

/-! ## The three blocks on the properties that can be treated -/

theorem del_fold (ns : List String) (s : St) (hs : s.stop = .go) (hn : ns.Nodup) (h : ∀ n ∈ ns, n ∈ s.db.tab.names ∧ Good n) :
    (ns.foldl delOne s).stop = .go ∧ (ns.foldl delOne s).exits = s.exits ++ ns.map (fun _ => 0) ∧
    (ns.foldl delOne s).db.tab.cols = s.db.tab.cols.filter (fun c => decide (c.1 ∉ ns)) ∧
    (∀ r c, (ns.foldl delOne s).db.tab.cell r c = if c ∈ ns then none else s.db.tab.cell r c) ∧
    (ns.foldl delOne s).db.logs = s.db.logs ∧ (ns.foldl delOne s).db.descs = s.db.descs := by
  induction ns generalizing s with
  | nil => exact ⟨hs, by simp, (List.filter_eq_self.2 (fun _ _ => by simp)).symm, by simp, rfl, rfl⟩
  | cons n ns ih =>
    have hh := h n List.mem_cons_self
    have hd : dropCol s.db.tab n =
        some ⟨s.db.tab.cols.filter (fun c => decide (c.1 ≠ n)), fun r c => if c = n then none else s.db.tab.cell r c⟩ := if_pos hh.1
    have e : delOne s n =
        { s with db := { s.db with tab := ⟨s.db.tab.cols.filter (fun c => decide (c.1 ≠ n)),
            fun r c => if c = n then none else s.db.tab.cell r c⟩ }, exits := s.exits ++ [0] } := by
      unfold delOne
      rw [if_neg (fun hc => hc hs), if_neg (by rw [good_refused hh.2]; exact Bool.false_ne_true), hd]
    rw [List.nodup_cons] at hn
    rw [List.foldl_cons, e]
    obtain ⟨a1, a2, a3, a4, a5, a6⟩ := ih { s with db := { s.db with tab := ⟨s.db.tab.cols.filter (fun c => decide (c.1 ≠ n)),
            fun r c => if c = n then none else s.db.tab.cell r c⟩ }, exits := s.exits ++ [0] } hs hn.2 (by
      intro m hm
      refine ⟨?_, (h m (List.mem_cons_of_mem _ hm)).2⟩
      have hmn : m ≠ n := fun e => hn.1 (e ▸ hm)
      have := (h m (List.mem_cons_of_mem _ hm)).1
      obtain ⟨x, hx, rfl⟩ := List.mem_map.1 this
      exact List.mem_map.2 ⟨x, List.mem_filter.2 ⟨hx, by simpa using hmn⟩, rfl⟩)
    refine ⟨a1, ?_, ?_, ?_, a5, a6⟩
    · rw [a2]; simp
    · rw [a3]
      show List.filter _ (List.filter _ _) = _
      rw [List.filter_filter]
      congr 1
      funext c
      by_cases h1 : c.1 = n <;> by_cases h2 : c.1 ∈ ns <;> simp [h1, h2]
    · intro r c
      rw [a4]
      show (if c ∈ ns then none else if c = n then none else s.db.tab.cell r c) = _
      by_cases h1 : c = n <;> by_cases h2 : c ∈ ns <;> simp [h1, h2]

theorem add_fold (names : List String) (v : Bool) (ns : List String) (s : St) (hs : s.stop = .go) (hn : ns.Nodup)
    (h : ∀ n ∈ ns, n ∉ names ∧ n ∉ s.db.tab.names ∧ Good n ∧ n ≠ "" ∧ ¬ Blank n) :
    (ns.foldl (addOne names v) s).stop = .go ∧ (ns.foldl (addOne names v) s).exits = s.exits ++ ns.map (fun _ => 0) ∧
    (ns.foldl (addOne names v) s).db.tab.cols = s.db.tab.cols ++ ns.map (fun n => (n, if v then Ty.varchar else Ty.int)) ∧
    (∀ r c, (ns.foldl (addOne names v) s).db.tab.cell r c = if c ∈ ns then none else s.db.tab.cell r c) ∧
    (ns.foldl (addOne names v) s).db.logs = s.db.logs ∧ (ns.foldl (addOne names v) s).db.descs = s.db.descs := by
  induction ns generalizing s with
  | nil => simp [hs]
  | cons n ns ih =>
    obtain ⟨h1, h2, h3, h4, h5⟩ := h n List.mem_cons_self
    have hd : addCol s.db.tab n (if v then .varchar else .int) =
        some ⟨s.db.tab.cols ++ [(n, if v then .varchar else .int)], fun r c => if c = n then none else s.db.tab.cell r c⟩ :=
      if_neg (fun hc => hc.elim h4 h2)
    have e : addOne names v s n =
        { s with db := { s.db with tab := ⟨s.db.tab.cols ++ [(n, if v then .varchar else .int)],
            fun r c => if c = n then none else s.db.tab.cell r c⟩ }, exits := s.exits ++ [0] } := by
      unfold addOne
      rw [lstrip_self h5, if_neg (fun hc => hc hs), if_neg (by rw [good_refused h3]; exact Bool.false_ne_true), if_neg h1, hd]
    rw [List.nodup_cons] at hn
    rw [List.foldl_cons, e]
    obtain ⟨a1, a2, a3, a4, a5, a6⟩ := ih { s with db := { s.db with tab := ⟨s.db.tab.cols ++ [(n, if v then .varchar else .int)],
            fun r c => if c = n then none else s.db.tab.cell r c⟩ }, exits := s.exits ++ [0] } hs hn.2 (by
      intro m hm
      obtain ⟨k1, k2, k3⟩ := h m (List.mem_cons_of_mem _ hm)
      refine ⟨k1, ?_, k3⟩
      have hmn : m ≠ n := fun e => hn.1 (e ▸ hm)
      show m ∉ (s.db.tab.cols ++ [(n, if v then Ty.varchar else Ty.int)]).map Prod.fst
      rw [List.map_append, List.mem_append]
      rintro (hc | hc)
      · exact k2 hc
      · simp at hc; exact hmn hc)
    refine ⟨a1, ?_, ?_, ?_, a5, a6⟩
    · rw [a2]; simp
    · rw [a3]; simp
    · intro r c
      rw [a4]
      show (if c ∈ ns then none else if c = n then none else s.db.tab.cell r c) = _
      by_cases h1 : c = n <;> by_cases h2 : c ∈ ns <;> simp [h1, h2]

theorem rho_none {ren : List (String × String)} {c : String} (h : c ∉ ren.map Prod.fst) : rho ren c = c := by
  unfold rho
  rw [List.lookup_eq_none_iff.2 (fun p hp => by
    have : p.1 ≠ c := fun e => h (e ▸ List.mem_map_of_mem hp)
    simpa using Ne.symm this)]
  rfl

theorem rho_cons (o n : String) (ren : List (String × String)) (hn : n ∉ ren.map Prod.fst) (ho : o ∉ ren.map Prod.fst) (c : String) :
    rho ((o, n) :: ren) c = rho ren (if c = o then n else c) := by
  by_cases h : c = o
  · subst h
    rw [if_pos rfl, rho_none hn]
    simp [rho]
  · rw [if_neg h]
    unfold rho
    rw [List.lookup_cons, show (c == o) = false by simpa using h]

theorem split_pair (x : String × String) (h1 : ',' ∉ x.1.toList) (h2 : ',' ∉ x.2.toList) :
    split ',' (pair x).toList = [x.1.toList, x.2.toList] := by
  have e : (pair x).toList = x.1.toList ++ ',' :: x.2.toList := by simp [pair]
  rw [e, split_cons_sep _ _ _ (fun y hy he => h1 ((show y = ',' from he) ▸ hy)),
    split_nil_sep _ _ (fun y hy he => h2 ((show y = ',' from he) ▸ hy))]

/-- One renaming that can be done. -/
theorem ren_one (names : List String) (s : St) (hs : s.stop = .go) (x : String × String) (h : x.1 ∈ names ∧ x.1 ∈ s.db.tab.names ∧ Good x.1 ∧
    ',' ∉ x.1.toList ∧ x.2 ∉ names ∧ x.2 ∉ s.db.tab.names ∧ x.2 ≠ "" ∧ Good x.2 ∧ ',' ∉ x.2.toList) :
    renOne names s (pair x) =
      { s with db := ⟨⟨s.db.tab.cols.map (fun c => if c.1 = x.1 then (x.2, c.2) else c),
          fun r c => if c = x.2 then s.db.tab.cell r x.1 else if c = x.1 then none else s.db.tab.cell r c⟩,
          renameRows s.db.logs x.1 x.2, renameRows s.db.descs x.1 x.2⟩, exits := s.exits ++ [0] } := by
  obtain ⟨a1, a2, a3, a4, b1, b2, b3, b4, b5⟩ := h
  unfold renOne
  rw [if_neg (fun hc => hc hs), split_pair x a4 b5]
  dsimp only
  rw [String.ofList_toList, String.ofList_toList, if_neg (by rw [good_refused a3, good_refused b4]; exact Bool.false_ne_true),
    if_neg (fun hc => hc a1), if_neg b1]
  have : renameCol s.db.tab x.1 x.2 = some ⟨s.db.tab.cols.map (fun c => if c.1 = x.1 then (x.2, c.2) else c),
      fun r c => if c = x.2 then s.db.tab.cell r x.1 else if c = x.1 then none else s.db.tab.cell r c⟩ := by
    unfold renameCol
    rw [if_neg]
    rintro (hc | hc | hc)
    · exact hc a2
    · exact b2 hc
    · exact b3 hc
  rw [this]

theorem mem_names_rename (t : List (String × Ty)) (o n m : String) :
    m ∈ (t.map (fun c => if c.1 = o then (n, c.2) else c)).map Prod.fst ↔ (m = n ∧ o ∈ t.map Prod.fst) ∨ (m ∈ t.map Prod.fst ∧ m ≠ o) := by
  rw [List.map_map]
  constructor
  · intro h
    obtain ⟨c, hc, rfl⟩ := List.mem_map.1 h
    dsimp only [Function.comp]
    by_cases e : c.1 = o
    · rw [if_pos e]; exact .inl ⟨rfl, e ▸ List.mem_map_of_mem hc⟩
    · rw [if_neg e]; exact .inr ⟨List.mem_map_of_mem hc, e⟩
  · rintro (⟨rfl, h⟩ | ⟨h, e⟩)
    · obtain ⟨c, hc, rfl⟩ := List.mem_map.1 h
      exact List.mem_map.2 ⟨c, hc, by simp⟩
    · obtain ⟨c, hc, rfl⟩ := List.mem_map.1 h
      exact List.mem_map.2 ⟨c, hc, by simp [e]⟩

theorem ren_fold (names : List String) (ren : List (String × String)) (s : St) (hs : s.stop = .go) (h1 : (ren.map Prod.fst).Nodup)
    (h2 : (ren.map Prod.snd).Nodup) (h : ∀ x ∈ ren, x.1 ∈ names ∧ x.1 ∈ s.db.tab.names ∧ Good x.1 ∧ ',' ∉ x.1.toList ∧
      x.2 ∉ names ∧ x.2 ∉ s.db.tab.names ∧ x.2 ≠ "" ∧ Good x.2 ∧ ',' ∉ x.2.toList) :
    ((ren.map pair).foldl (renOne names) s).stop = .go ∧
    ((ren.map pair).foldl (renOne names) s).exits = s.exits ++ ren.map (fun _ => 0) ∧
    ((ren.map pair).foldl (renOne names) s).db.tab.cols = s.db.tab.cols.map (fun c => (rho ren c.1, c.2)) ∧
    (∀ r c, c ∈ s.db.tab.names → ((ren.map pair).foldl (renOne names) s).db.tab.cell r (rho ren c) = s.db.tab.cell r c) ∧
    ((ren.map pair).foldl (renOne names) s).db.logs = s.db.logs.map (fun x => (x.1, rho ren x.2)) ∧
    ((ren.map pair).foldl (renOne names) s).db.descs = s.db.descs.map (fun x => (x.1, rho ren x.2)) := by
  induction ren generalizing s with
  | nil =>
    refine ⟨hs, by simp, ?_, fun r c _ => ?_, ?_, ?_⟩
    · simp [rho]
    · simp [rho]
    · simp [rho]
    · simp [rho]
  | cons x ren ih =>
    have hx := h x List.mem_cons_self
    rw [List.map_cons, List.foldl_cons, ren_one names s hs x hx]
    rw [List.map_cons, List.nodup_cons] at h1 h2
    have hno : x.2 ∉ ren.map Prod.fst := by
      intro hc
      obtain ⟨y, hy, he⟩ := List.mem_map.1 hc
      exact hx.2.2.2.2.1 (he ▸ (h y (List.mem_cons_of_mem _ hy)).1)
    obtain ⟨a1, a2, a3, a4, a5, a6⟩ := ih { s with db := ⟨⟨s.db.tab.cols.map (fun c => if c.1 = x.1 then (x.2, c.2) else c),
          fun r c => if c = x.2 then s.db.tab.cell r x.1 else if c = x.1 then none else s.db.tab.cell r c⟩,
          renameRows s.db.logs x.1 x.2, renameRows s.db.descs x.1 x.2⟩, exits := s.exits ++ [0] } hs h1.2 h2.2 (by
      intro y hy
      obtain ⟨k1, k2, k3, k4, k5, k6, k7⟩ := h y (List.mem_cons_of_mem _ hy)
      refine ⟨k1, ?_, k3, k4, k5, ?_, k7⟩
      · refine (mem_names_rename _ _ _ _).2 (.inr ⟨k2, ?_⟩)
        exact fun e => h1.1 (e ▸ List.mem_map_of_mem hy)
      · intro hc
        rcases (mem_names_rename _ _ _ _).1 hc with ⟨e, _⟩ | ⟨e, _⟩
        · exact h2.1 (e ▸ List.mem_map_of_mem hy)
        · exact k6 e)
    have hrho : ∀ c, rho (x :: ren) c = rho ren (if c = x.1 then x.2 else c) := rho_cons x.1 x.2 ren hno h1.1
    have hrow : ∀ l : List (Nat × String), (renameRows l x.1 x.2).map (fun y => (y.1, rho ren y.2)) = l.map (fun y => (y.1, rho (x :: ren) y.2)) := by
      intro l
      unfold renameRows
      rw [List.map_map]
      apply List.map_congr_left
      intro y _
      show ((if y.2 = x.1 then (y.1, x.2) else y).1, rho ren (if y.2 = x.1 then (y.1, x.2) else y).2) = _
      rw [hrho]
      by_cases e : y.2 = x.1 <;> simp [e]
    refine ⟨a1, ?_, ?_, ?_, ?_, ?_⟩
    · rw [a2]; simp
    · rw [a3]
      show List.map _ (List.map _ _) = _
      rw [List.map_map]
      apply List.map_congr_left
      intro y _
      show (rho ren (if y.1 = x.1 then (x.2, y.2) else y).1, (if y.1 = x.1 then (x.2, y.2) else y).2) = _
      rw [hrho]
      by_cases e : y.1 = x.1 <;> simp [e]
    · intro r c hc
      rw [hrho]
      by_cases e : c = x.1
      · rw [if_pos e, a4 r x.2 ((mem_names_rename _ _ _ _).2 (.inl ⟨rfl, hx.2.1⟩))]
        show (if x.2 = x.2 then s.db.tab.cell r x.1 else _) = _
        rw [if_pos rfl, e]
      · rw [if_neg e, a4 r c ((mem_names_rename _ _ _ _).2 (.inr ⟨hc, e⟩))]
        show (if c = x.2 then _ else if c = x.1 then none else s.db.tab.cell r c) = _
        rw [if_neg (fun e' : c = x.2 => hx.2.2.2.2.2.1 (e' ▸ hc)), if_neg e]
    · rw [a5]; exact hrow _
    · rw [a6]; exact hrow _

theorem exit_zeros (l : List Int) (h : ∀ e ∈ l, e = 0) : (Cli.exitValue ⟨l, 0⟩).1 = 0 := by
  have : ∀ (l : List Int), (∀ e ∈ l, e = 0) → (Cli.exitLoop l 0 0).1 = 0 := by
    intro l
    induction l with
    | nil => intro _; rfl
    | cons e es ih =>
      intro h
      have he := h e List.mem_cons_self
      unfold Cli.exitLoop
      rw [if_neg (fun hc => hc he)]
      exact ih (fun x hx => h x (List.mem_cons_of_mem _ hx))
  unfold Cli.exitValue
  rw [if_pos rfl]
  exact this l h

/-- C84. Deletions, additions and renamings that can be done are done, and nothing else: the columns are the old ones without the deleted ones, then
the added ones, under their new names and with their types; the values of the resources follow the names, the added properties
have no value; the logs of the resources and the requests of the jobs follow the renamings; the exit status is 0. -/
theorem exact (db : DB) (del add : List String) (ren : List (String × String)) (v : Bool) (h : Doable db.tab del add ren) :
    let o := oarproperty db { delete := del, add := add, varchar := v, rename := ren.map pair }
    status o = 0 ∧
    o.db.tab.cols = (db.tab.cols.filter (fun c => decide (c.1 ∉ del))).map (fun c => (rho ren c.1, c.2)) ++
      add.map (fun n => (n, if v then Ty.varchar else Ty.int)) ∧
    (∀ r c, c ∈ db.tab.names → c ∉ del → o.db.tab.cell r (rho ren c) = db.tab.cell r c) ∧
    (∀ r n, n ∈ add → o.db.tab.cell r n = none) ∧
    o.db.logs = db.logs.map (fun x => (x.1, rho ren x.2)) ∧ o.db.descs = db.descs.map (fun x => (x.1, rho ren x.2)) := by
  obtain ⟨d1, d2, d3, d4, d5, d6⟩ := del_fold del { db := db } rfl h.delNodup h.delOk
  generalize hsd : del.foldl delOne { db := db } = sd at d1 d2 d3 d4 d5 d6
  have hsub : ∀ n, n ∈ sd.db.tab.names ↔ n ∈ db.tab.names ∧ n ∉ del := by
    intro n
    unfold Tab.names
    rw [d3, List.mem_map, List.mem_map]
    constructor
    · rintro ⟨c, hc, rfl⟩
      obtain ⟨k1, k2⟩ := List.mem_filter.1 hc
      exact ⟨⟨c, k1, rfl⟩, by simpa using k2⟩
    · rintro ⟨⟨c, hc, rfl⟩, k⟩
      exact ⟨c, List.mem_filter.2 ⟨hc, by simpa using k⟩, rfl⟩
  obtain ⟨a1, a2, a3, a4, a5, a6⟩ := add_fold db.tab.names v add sd d1 h.addNodup
    (fun n hn => ⟨(h.addOk n hn).1, fun hc => (h.addOk n hn).1 ((hsub n).1 hc).1, (h.addOk n hn).2⟩)
  generalize hsa : add.foldl (addOne db.tab.names v) sd = sa at a1 a2 a3 a4 a5 a6
  have hsub2 : ∀ n, n ∈ sa.db.tab.names ↔ (n ∈ db.tab.names ∧ n ∉ del) ∨ n ∈ add := by
    intro n
    rw [← hsub n]
    unfold Tab.names
    rw [a3, List.map_append, List.mem_append, List.map_map]
    simp [Function.comp_def]
  obtain ⟨r1, r2, r3, r4, r5, r6⟩ := ren_fold db.tab.names ren sa a1 h.oldNodup h.newNodup (by
    intro x hx
    obtain ⟨k1, k2, k3, k4, k5, k6, k7⟩ := h.renOk x hx
    exact ⟨k1, (hsub2 _).2 (.inl ⟨k1, k2⟩), k3, k4, k5, fun hc => by
      rcases (hsub2 _).1 hc with ⟨e, _⟩ | e
      · exact k5 e
      · exact k6 e, k7⟩)
  have eb : blocks db { delete := del, add := add, varchar := v, rename := ren.map pair } = (ren.map pair).foldl (renOne db.tab.names) sa := by
    rw [← hsa, ← hsd]; rfl
  have hadd : ∀ n ∈ add, rho ren n = n := by
    intro n hn
    refine rho_none (fun hc => ?_)
    obtain ⟨y, hy, he⟩ := List.mem_map.1 hc
    exact (h.addOk n hn).1 (he ▸ (h.renOk y hy).1)
  intro o
  have eo : o = ⟨((ren.map pair).foldl (renOne db.tab.names) sa).db, ⟨((ren.map pair).foldl (renOne db.tab.names) sa).exits, 0⟩, false⟩ := by
    show finish db _ = _
    rw [eb]
    unfold finish
    rw [if_neg (by rw [r1]; decide)]
  rw [eo]
  refine ⟨?_, ?_, ?_, ?_, ?_, ?_⟩
  · show (Cli.exitValue ⟨_, 0⟩).1 = 0
    apply exit_zeros
    intro e he
    rw [r2, a2, d2] at he
    simp only [List.mem_append, List.mem_map] at he
    rcases he with ((he | ⟨_, _, he⟩) | ⟨_, _, he⟩) | ⟨_, _, he⟩
    · simp at he
    · exact he.symm
    · exact he.symm
    · exact he.symm
  · show (List.foldl (renOne db.tab.names) sa _).db.tab.cols = _
    rw [r3, a3, d3, List.map_append, List.map_map]
    congr 1
    apply List.map_congr_left
    intro n hn
    show (rho ren n, _) = _
    rw [hadd n hn]
  · intro r c hc hcd
    show (List.foldl (renOne db.tab.names) sa _).db.tab.cell r _ = _
    rw [r4 r c ((hsub2 c).2 (.inl ⟨hc, hcd⟩)), a4, if_neg (fun hca => (h.addOk c hca).1 hc), d4, if_neg hcd]
  · intro r n hn
    have := r4 r n ((hsub2 n).2 (.inr hn))
    rw [hadd n hn] at this
    show (List.foldl (renOne db.tab.names) sa _).db.tab.cell r n = _
    rw [this, a4, if_pos hn]
  · show (List.foldl (renOne db.tab.names) sa _).db.logs = _
    rw [r5, a5, d5]
  · show (List.foldl (renOne db.tab.names) sa _).db.descs = _
    rw [r6, a6, d6]

/-- A small table. -/
def small : DB := ⟨⟨[("resource_id", .int), ("core", .int), ("cluster", .varchar), ("old", .int)], fun r c =>
  if c = "core" then (if r = 1 then some "4" else none) else none⟩, [(1, "core"), (2, "cluster")], [(1, "core")]⟩

example : WF small.tab ∧ Doable small.tab ["old"] ["gpu"] [("core", "cpu"), ("cluster", "site")] := by
  refine ⟨⟨by decide, ?_⟩, ⟨by decide, ?_, by decide, ?_, by decide, by decide, ?_⟩⟩
  · intro r c hc
    have : c ≠ "core" := by rintro rfl; exact hc (by decide)
    show (if c = "core" then _ else none) = none
    rw [if_neg this]
  · intro n hn; simp only [List.mem_singleton] at hn; subst hn; exact ⟨by decide, by decide, by decide⟩
  · intro n hn; simp only [List.mem_singleton] at hn; subst hn
    refine ⟨by decide, ⟨by decide, by decide⟩, by decide, ?_⟩
    rintro ⟨c, hc, h⟩
    have : c = 'g' := by simpa using hc.symm
    subst this; revert h; decide
  · intro x hx
    simp only [List.mem_cons, List.not_mem_nil, or_false] at hx
    rcases hx with rfl | rfl
    · exact ⟨by decide, by decide, ⟨by decide, by decide⟩, by decide, by decide, by decide, by decide, ⟨by decide, by decide⟩, by decide⟩
    · exact ⟨by decide, by decide, ⟨by decide, by decide⟩, by decide, by decide, by decide, by decide, ⟨by decide, by decide⟩, by decide⟩

/-! ## Whatever the arguments -/

/-- An invariant of the steps is one of the blocks. -/
theorem blocks_inv (db : DB) (a : Args) (P : St → Prop) (h0 : P { db := db }) (hd : ∀ s n, P s → P (delOne s n))
    (ha : ∀ s n, P s → P (addOne db.tab.names a.varchar s n)) (hr : ∀ s t, P s → P (renOne db.tab.names s t)) : P (blocks db a) := by
  have fold : ∀ (f : St → String → St) (l : List String) (s : St), (∀ s n, P s → P (f s n)) → P s → P (l.foldl f s) := by
    intro f l
    induction l with
    | nil => intro s _ h; exact h
    | cons x l ih => intro s hf h; exact ih (f s x) hf (hf s x h)
  exact fold _ _ _ hr (fold _ _ _ ha (fold _ _ _ hd h0))

theorem drop_wf {t t' : Tab} {n : String} (h : WF t) (e : dropCol t n = some t') : WF t' := by
  unfold dropCol at e
  split at e
  · cases e
    refine ⟨List.Sublist.nodup (List.Sublist.map _ List.filter_sublist) h.1, fun r c hc => ?_⟩
    show (if c = n then none else t.cell r c) = none
    by_cases e : c = n
    · rw [if_pos e]
    · rw [if_neg e]
      refine h.2 r c (fun hm => hc ?_)
      obtain ⟨x, hx, rfl⟩ := List.mem_map.1 hm
      exact List.mem_map.2 ⟨x, List.mem_filter.2 ⟨hx, by simpa using e⟩, rfl⟩
  · cases e

theorem add_wf {t t' : Tab} {n : String} {ty : Ty} (h : WF t) (e : addCol t n ty = some t') : WF t' := by
  unfold addCol at e
  split at e
  · cases e
  · rename_i hn
    cases e
    refine ⟨?_, fun r c hc => ?_⟩
    · show ((t.cols ++ [(n, ty)]).map Prod.fst).Nodup
      rw [List.map_append, List.nodup_append]
      refine ⟨h.1, by simp, ?_⟩
      intro a ha b hb e
      simp only [List.map_cons, List.map_nil, List.mem_singleton] at hb
      exact hn (.inr (by rw [← hb, ← e]; exact ha))
    · show (if c = n then none else t.cell r c) = none
      by_cases e : c = n
      · rw [if_pos e]
      · rw [if_neg e]
        refine h.2 r c (fun hm => hc ?_)
        show c ∈ (t.cols ++ [(n, ty)]).map Prod.fst
        rw [List.map_append]; exact List.mem_append_left _ hm

theorem rename_wf {t t' : Tab} {o n : String} (h : WF t) (e : renameCol t o n = some t') : WF t' := by
  unfold renameCol at e
  split at e
  · cases e
  · rename_i hn
    have ho : o ∈ t.names := Classical.not_not.1 (fun hc => hn (.inl hc))
    have hnn : n ∉ t.names := fun hc => hn (.inr (.inl hc))
    cases e
    refine ⟨?_, fun r c hc => ?_⟩
    · show ((t.cols.map (fun c => if c.1 = o then (n, c.2) else c)).map Prod.fst).Nodup
      have e : (t.cols.map (fun c => if c.1 = o then (n, c.2) else c)).map Prod.fst = t.names.map (fun c => if c = o then n else c) := by
        unfold Tab.names
        rw [List.map_map, List.map_map]
        apply List.map_congr_left
        intro c _
        show (if c.1 = o then (n, c.2) else c).1 = if c.1 = o then n else c.1
        by_cases h : c.1 = o
        · rw [if_pos h, if_pos h]
        · rw [if_neg h, if_neg h]
      rw [e]
      have gen : ∀ l : List String, l.Nodup → n ∉ l → (l.map (fun c => if c = o then n else c)).Nodup := by
        intro l
        induction l with
        | nil => intro _ _; exact List.nodup_nil
        | cons x l ih =>
          intro h1 h2
          rw [List.nodup_cons] at h1
          rw [List.map_cons, List.nodup_cons]
          refine ⟨?_, ih h1.2 (fun hc => h2 (List.mem_cons_of_mem _ hc))⟩
          intro hc
          obtain ⟨y, hy, he⟩ := List.mem_map.1 hc
          have hyn : y ≠ n := fun e => h2 (e ▸ List.mem_cons_of_mem _ hy)
          have hxn : x ≠ n := fun e => h2 (e ▸ List.mem_cons_self)
          have hxy : y ≠ x := fun e => h1.1 (e ▸ hy)
          by_cases h3 : y = o <;> by_cases h4 : x = o
          · exact hxy (h3.trans h4.symm)
          · rw [if_pos h3, if_neg h4] at he; exact hxn he.symm
          · rw [if_neg h3, if_pos h4] at he; exact hyn he
          · rw [if_neg h3, if_neg h4] at he; exact hxy he
      exact gen _ h.1 hnn
    · have hc' := fun hm => hc ((mem_names_rename t.cols o n c).2 hm)
      show (if c = n then t.cell r o else if c = o then none else t.cell r c) = none
      by_cases e1 : c = n
      · exact absurd (.inl ⟨e1, ho⟩) hc'
      · rw [if_neg e1]
        by_cases e2 : c = o
        · rw [if_pos e2]
        · rw [if_neg e2]
          exact h.2 r c (fun hm => hc' (.inr ⟨hm, e2⟩))

/-- C84. Whatever the arguments, the names of the properties stay unique and the values stay those of the properties. -/
theorem always_wf (db : DB) (a : Args) (h : WF db.tab) : WF (oarproperty db a).db.tab := by
  have : WF (blocks db a).db.tab := by
    refine blocks_inv db a (fun s => WF s.db.tab) h ?_ ?_ ?_
    · intro s n hs
      unfold delOne
      split
      · exact hs
      · split
        · exact hs
        · cases e : dropCol s.db.tab n with
          | none => exact hs
          | some t => exact drop_wf hs e
    · intro s n hs
      unfold addOne
      split
      · exact hs
      · split
        · exact hs
        · split
          · exact hs
          · cases e : addCol s.db.tab (lstrip n) (if a.varchar then .varchar else .int) with
            | none => exact hs
            | some t => exact add_wf hs e
    · intro s t hs
      unfold renOne
      split
      · exact hs
      · split
        · dsimp only
          split
          · exact hs
          · split
            · exact hs
            · split
              · exact hs
              · rename_i oc nc _ _ _ _
                cases e : renameCol s.db.tab (String.ofList oc) (String.ofList nc) with
                | none => exact hs
                | some t => exact rename_wf hs e
        · exact hs
  unfold oarproperty finish
  split
  · exact h
  · exact this

/-- The columns of a name. -/
def named (t : Tab) (n : String) : List (String × Ty) := t.cols.filter (fun c => decide (c.1 = n))

/-- Same columns and values for the properties of the system. -/
def Keeps (t t' : Tab) : Prop := ∀ n ∈ systemNames, named t' n = named t n ∧ ∀ r, t'.cell r n = t.cell r n

theorem drop_keeps {t t' : Tab} {n : String} (hg : Good n) (e : dropCol t n = some t') : Keeps t t' := by
  unfold dropCol at e
  split at e
  · cases e
    intro m hm
    have hmn : m ≠ n := fun e => hg.2 (e ▸ hm)
    refine ⟨?_, fun r => if_neg hmn⟩
    unfold named
    show List.filter _ (List.filter _ _) = _
    rw [List.filter_filter]
    congr 1
    funext c
    by_cases h : c.1 = m
    · simp [h, hmn]
    · simp [h]
  · cases e

theorem add_keeps {t t' : Tab} {n : String} {ty : Ty} (hg : Good n) (e : addCol t n ty = some t') : Keeps t t' := by
  unfold addCol at e
  split at e
  · cases e
  · cases e
    intro m hm
    have hmn : m ≠ n := fun e => hg.2 (e ▸ hm)
    refine ⟨?_, fun r => if_neg hmn⟩
    unfold named
    show List.filter _ (t.cols ++ [(n, ty)]) = _
    rw [List.filter_append]
    simp [Ne.symm hmn]

theorem rename_keeps {t t' : Tab} {o n : String} (ho : Good o) (hn : Good n) (e : renameCol t o n = some t') : Keeps t t' := by
  unfold renameCol at e
  split at e
  · cases e
  · cases e
    intro m hm
    have hmn : m ≠ n := fun e => hn.2 (e ▸ hm)
    have hmo : m ≠ o := fun e => ho.2 (e ▸ hm)
    refine ⟨?_, fun r => (if_neg hmn).trans (if_neg hmo)⟩
    unfold named
    show List.filter _ (t.cols.map _) = _
    generalize t.cols = l
    induction l with
    | nil => rfl
    | cons c l ih =>
      rw [List.map_cons]
      by_cases h : c.1 = o
      · rw [if_pos h, List.filter_cons_of_neg (by simpa using Ne.symm hmn), ih,
          List.filter_cons_of_neg (by simp [h]; exact Ne.symm hmo)]
      · rw [if_neg h, List.filter_cons, List.filter_cons, ih]

theorem keeps_trans {a b c : Tab} (h1 : Keeps a b) (h2 : Keeps b c) : Keeps a c :=
  fun n hn => ⟨(h2 n hn).1.trans (h1 n hn).1, fun r => ((h2 n hn).2 r).trans ((h1 n hn).2 r)⟩

/-- C84. Whatever the arguments, the properties of the system, and so all the columns of the class of the resources, keep their columns and their
values. -/
theorem system_protected (db : DB) (a : Args) :
    (∀ n ∈ systemNames, named (oarproperty db a).db.tab n = named db.tab n ∧ ∀ r, (oarproperty db a).db.tab.cell r n = db.tab.cell r n) ∧
    ∀ n ∈ declared, n ∈ systemNames := by
  refine ⟨?_, by decide⟩
  have : Keeps db.tab (blocks db a).db.tab := by
    refine blocks_inv db a (fun s => Keeps db.tab s.db.tab) (fun n _ => ⟨rfl, fun _ => rfl⟩) ?_ ?_ ?_
    · intro s n hs
      unfold delOne
      split
      · exact hs
      · split
        · exact hs
        · rename_i hg
          cases e : dropCol s.db.tab n with
          | none => exact hs
          | some t => exact keeps_trans hs (drop_keeps (refused_good (by simpa using hg)) e)
    · intro s n hs
      unfold addOne
      split
      · exact hs
      · split
        · exact hs
        · rename_i hg
          split
          · exact hs
          · cases e : addCol s.db.tab (lstrip n) (if a.varchar then .varchar else .int) with
            | none => exact hs
            | some t => exact keeps_trans hs (add_keeps (refused_good (by simpa using hg)) e)
    · intro s t hs
      unfold renOne
      split
      · exact hs
      · split
        · dsimp only
          split
          · exact hs
          · rename_i hg
            split
            · exact hs
            · split
              · exact hs
              · rename_i oc nc _ _ _
                cases e : renameCol s.db.tab (String.ofList oc) (String.ofList nc) with
                | none => exact hs
                | some t =>
                  simp only [Bool.or_eq_true, not_or, Bool.not_eq_true] at hg
                  exact keeps_trans hs (rename_keeps (refused_good hg.1) (refused_good hg.2) e)
        · exact hs
  unfold oarproperty finish
  split
  · intro n _; exact ⟨rfl, fun _ => rfl⟩
  · exact this

/-- C84. A command that stops on an exception gives back the table of the resources, and its exit status is 1. -/
theorem error_keeps_table (db : DB) (a : Args) (h : (oarproperty db a).raised = true) :
    (oarproperty db a).db.tab = db.tab ∧ status (oarproperty db a) = 1 := by
  refine ⟨?_, if_pos h⟩
  unfold oarproperty finish at h ⊢
  split
  · rfl
  · rename_i hs; rw [if_neg hs] at h; exact absurd h Bool.false_ne_true

/-- C84. The list shows the properties that are not of the system, each once. -/
theorem list_exact (db : DB) (h : WF db.tab) :
    (listed db).Nodup ∧ ∀ n, n ∈ listed db ↔ n ∈ db.tab.names ∧ n ∉ systemNames := by
  refine ⟨h.1.filter _, fun n => ?_⟩
  unfold listed
  rw [List.mem_filter]; simp

theorem del_stopped (l : List String) (s : St) (h : s.stop ≠ .go) : l.foldl delOne s = s := by
  induction l with
  | nil => rfl
  | cons x l ih => rw [List.foldl_cons, show delOne s x = s from if_pos h, ih]

theorem add_stopped (names : List String) (v : Bool) (l : List String) (s : St) (h : s.stop ≠ .go) : l.foldl (addOne names v) s = s := by
  induction l with
  | nil => rfl
  | cons x l ih => rw [List.foldl_cons, show addOne names v s x = s from if_pos h, ih]

theorem ren_stopped (names : List String) (l : List String) (s : St) (h : s.stop ≠ .go) : l.foldl (renOne names) s = s := by
  induction l with
  | nil => rfl
  | cons x l ih => rw [List.foldl_cons, show renOne names s x = s from if_pos h, ih]

/-- C84. The deletion of a property that does not exist stops the command: nothing at all changes and the exit status is 1, whatever else is asked
after it. -/
theorem delete_unknown (db : DB) (n : String) (hg : Good n) (hn : n ∉ db.tab.names) (rest add ren : List String) (v : Bool) :
    (oarproperty db ⟨n :: rest, add, v, ren⟩).db = db ∧ status (oarproperty db ⟨n :: rest, add, v, ren⟩) = 1 := by
  have e : delOne { db := db } n = { db := db, stop := .raised } := by
    unfold delOne
    rw [if_neg (fun hc => hc rfl), if_neg (by rw [good_refused hg]; exact Bool.false_ne_true), show dropCol db.tab n = none from if_neg hn]
  have eb : blocks db ⟨n :: rest, add, v, ren⟩ = { db := db, stop := .raised } := by
    unfold blocks
    dsimp only
    rw [List.foldl_cons, e, del_stopped _ _ (show Stop.raised ≠ Stop.go by decide), add_stopped _ _ _ _ (show Stop.raised ≠ Stop.go by decide), ren_stopped _ _ _ (show Stop.raised ≠ Stop.go by decide)]
  have : oarproperty db ⟨n :: rest, add, v, ren⟩ = ⟨db, ⟨[], 0⟩, true⟩ := by
    unfold oarproperty; rw [eb]; rfl
  rw [this]; exact ⟨rfl, rfl⟩

/-! ## Refutations -/

theorem out_of {db : DB} {a : Args} {s : St} (e : blocks db a = s) (h : s.stop ≠ .raised) : oarproperty db a = ⟨s.db, ⟨s.exits, 0⟩, false⟩ := by
  unfold oarproperty; rw [e]; exact if_neg h

/-- C84, refuted. The type of an existing property is never found right nor wrong: adding again a text property as a text is an error (status 2),
adding it as a number is accepted (status 0); nothing changes in both cases. -/
theorem type_violated (db : DB) (n : String) (hg : Good n) (hb : ¬ Blank n) (h : (n, Ty.varchar) ∈ db.tab.cols) :
    (oarproperty db { add := [n], varchar := true }).db = db ∧ status (oarproperty db { add := [n], varchar := true }) = 2 ∧
    (oarproperty db { add := [n] }).db = db ∧ status (oarproperty db { add := [n] }) = 0 := by
  have hn : n ∈ db.tab.names := List.mem_map_of_mem (f := Prod.fst) h
  have e : ∀ v, addOne db.tab.names v { db := db } n = { db := db, exits := [if v then 2 else 0] } := by
    intro v
    unfold addOne
    rw [lstrip_self hb, if_neg (fun hc => hc rfl), if_neg (by rw [good_refused hg]; exact Bool.false_ne_true), if_pos hn]
    rfl
  have b1 : blocks db { add := [n], varchar := true } = { db := db, exits := [2] } := e true
  have b2 : blocks db { add := [n] } = { db := db, exits := [0] } := e false
  rw [out_of b1 (show Stop.go ≠ Stop.raised by decide), out_of b2 (show Stop.go ≠ Stop.raised by decide)]
  exact ⟨rfl, rfl, rfl, rfl⟩

/-- C84, refuted. A refused name stops the command with exit status 0: the other properties asked after it are neither deleted, added nor
renamed. -/
theorem refused_violated (db : DB) (n : String) (hg : ¬ Good n) (rest add ren : List String) (v : Bool) :
    (oarproperty db ⟨n :: rest, add, v, ren⟩).db = db ∧ status (oarproperty db ⟨n :: rest, add, v, ren⟩) = 0 := by
  have hr : refused n = true := by
    cases h : refused n with
    | true => rfl
    | false => exact absurd (refused_good h) hg
  have e : delOne { db := db } n = { db := db, exits := [0], stop := .ret } := by
    unfold delOne
    rw [if_neg (fun hc => hc rfl), if_pos hr]
    rfl
  have eb : blocks db ⟨n :: rest, add, v, ren⟩ = { db := db, exits := [0], stop := .ret } := by
    unfold blocks
    dsimp only
    rw [List.foldl_cons, e, del_stopped _ _ (show Stop.ret ≠ Stop.go by decide), add_stopped _ _ _ _ (show Stop.ret ≠ Stop.go by decide),
      ren_stopped _ _ _ (show Stop.ret ≠ Stop.go by decide)]
  rw [out_of eb (show Stop.ret ≠ Stop.raised by decide)]
  exact ⟨rfl, rfl⟩

example : ¬ Good "cpuset" ∧ ¬ Good "cœur" := by
  constructor
  · rintro ⟨_, h⟩; exact h (by decide)
  · rintro ⟨h, _⟩; exact absurd (h 'œ' (by decide)) (by decide)

/-- C84, refuted. Deleting a property and adding it again in the same command loses it with exit status 0: the existing names are those of the
beginning. -/
theorem retype_violated (db : DB) (n : String) (hg : Good n) (hb : ¬ Blank n) (h : n ∈ db.tab.names) :
    n ∉ (oarproperty db { delete := [n], add := [n] }).db.tab.names ∧ status (oarproperty db { delete := [n], add := [n] }) = 0 := by
  have d : delOne { db := db } n = { db := { db with tab := ⟨db.tab.cols.filter (fun c => decide (c.1 ≠ n)),
      fun r c => if c = n then none else db.tab.cell r c⟩ }, exits := [0] } := by
    unfold delOne
    rw [if_neg (fun hc => hc rfl), if_neg (by rw [good_refused hg]; exact Bool.false_ne_true),
      show dropCol db.tab n = some ⟨db.tab.cols.filter (fun c => decide (c.1 ≠ n)), fun r c => if c = n then none else db.tab.cell r c⟩ from if_pos h]
    rfl
  have b : blocks db { delete := [n], add := [n] } = { db := { db with tab := ⟨db.tab.cols.filter (fun c => decide (c.1 ≠ n)),
      fun r c => if c = n then none else db.tab.cell r c⟩ }, exits := [0, 0] } := by
    show addOne db.tab.names false (delOne { db := db } n) n = _
    rw [d]
    unfold addOne
    rw [lstrip_self hb, if_neg (fun hc => hc rfl), if_neg (by rw [good_refused hg]; exact Bool.false_ne_true), if_pos h]
    rfl
  rw [out_of b (show Stop.go ≠ Stop.raised by decide)]
  refine ⟨?_, rfl⟩
  intro hc
  obtain ⟨x, hx, e⟩ := List.mem_map.1 hc
  exact absurd e (by simpa using (List.mem_filter.1 hx).2)

/-- C84, refuted. A renaming that fails after another one (a text without comma) gives back the columns but not the logs and the requests, which are
left with a name that is no property. The same state is left by a stop of the command before the end of the transaction. -/
theorem rename_error_violated (db : DB) (x : String × String) (bad : String) (hbad : ',' ∉ bad.toList) (h : Doable db.tab [] [] [x]) :
    let o := oarproperty db { rename := [pair x, bad] }
    o.db.tab = db.tab ∧ x.2 ∉ o.db.tab.names ∧ status o = 1 ∧
    o.db.logs = db.logs.map (fun y => if y.2 = x.1 then (y.1, x.2) else y) ∧
    o.db.descs = db.descs.map (fun y => if y.2 = x.1 then (y.1, x.2) else y) := by
  obtain ⟨k1, _, k3, k4, k5, _, k7, k8, k9⟩ := h.renOk x List.mem_cons_self
  have e := ren_one db.tab.names { db := db } rfl x ⟨k1, k1, k3, k4, k5, k5, k7, k8, k9⟩
  have hs : split ',' bad.toList = [bad.toList] := split_nil_sep _ _ (fun y hy he => hbad ((show y = ',' from he) ▸ hy))
  have b : (blocks db { rename := [pair x, bad] }).stop = .raised ∧
      (blocks db { rename := [pair x, bad] }).db.logs = renameRows db.logs x.1 x.2 ∧
      (blocks db { rename := [pair x, bad] }).db.descs = renameRows db.descs x.1 x.2 := by
    have : blocks db { rename := [pair x, bad] } = renOne db.tab.names (renOne db.tab.names { db := db } (pair x)) bad := rfl
    rw [this, e]
    unfold renOne
    rw [if_neg (fun hc => hc rfl), hs]
    exact ⟨rfl, rfl, rfl⟩
  intro o
  have eo : o = ⟨{ (blocks db { rename := [pair x, bad] }).db with tab := db.tab }, ⟨(blocks db { rename := [pair x, bad] }).exits, 0⟩, true⟩ :=
    if_pos b.1
  rw [eo]
  exact ⟨rfl, k5, rfl, b.2.1, b.2.2⟩

theorem split_parts (l : List Char) : ∀ w ∈ split ',' l, ',' ∉ w := by
  induction l with
  | nil => intro w hw; simp [split] at hw; subst hw; exact List.not_mem_nil
  | cons c cs ih =>
    intro w hw
    unfold split at hw
    by_cases e : c = ','
    · rw [if_pos e] at hw
      rcases List.mem_cons.1 hw with rfl | hw
      · exact List.not_mem_nil
      · exact ih w hw
    · rw [if_neg e] at hw
      cases hs : split ',' cs with
      | nil =>
        rw [hs] at hw
        simp only [List.mem_singleton] at hw
        subst hw
        simpa using Ne.symm e
      | cons y ys =>
        rw [hs] at hw ih
        rcases List.mem_cons.1 hw with rfl | hw
        · intro hc
          rcases List.mem_cons.1 hc with h | h
          · exact e h.symm
          · exact ih y List.mem_cons_self h
        · exact ih w (List.mem_cons_of_mem _ hw)

/-- C84, refuted. Any ASCII text is accepted as a name. A name with a comma can be added, and then no renaming reaches it. -/
theorem any_name_violated (db : DB) (n : String) (hg : Good n) (hb : ¬ Blank n) (hne : n ≠ "") (hn : n ∉ db.tab.names) (hc : ',' ∈ n.toList) :
    n ∈ (oarproperty db { add := [n] }).db.tab.names ∧ status (oarproperty db { add := [n] }) = 0 ∧
    ∀ db' texts, n ∈ db'.tab.names → n ∈ (oarproperty db' { rename := texts }).db.tab.names := by
  have h := exact db [] [n] [] false ⟨by simp, by simp, by simp, by
    intro m hm; simp only [List.mem_singleton] at hm; subst hm; exact ⟨hn, hg, hne, hb⟩, by simp, by simp, by simp⟩
  refine ⟨?_, h.1, fun db' texts hm => ?_⟩
  · have := h.2.1
    show n ∈ List.map Prod.fst (oarproperty db { add := [n] }).db.tab.cols
    have e : ({ add := [n] } : Args) = { delete := [], add := [n], varchar := false, rename := ([] : List (String × String)).map pair } := rfl
    rw [e, this]
    simp
  · have : n ∈ (blocks db' { rename := texts }).db.tab.names := by
      have gen : ∀ (l : List String) (s : St), n ∈ s.db.tab.names → n ∈ (l.foldl (renOne db'.tab.names) s).db.tab.names := by
        intro l
        induction l with
        | nil => intro s h; exact h
        | cons t l ih =>
          intro s h
          refine ih _ ?_
          unfold renOne
          split
          · exact h
          · split
            · rename_i oc nc hsp
              dsimp only
              split
              · exact h
              · split
                · exact h
                · split
                  · exact h
                  · cases e : renameCol s.db.tab (String.ofList oc) (String.ofList nc) with
                    | none => exact h
                    | some t' =>
                      unfold renameCol at e
                      split at e
                      · cases e
                      · cases e
                        refine (mem_names_rename _ _ _ _).2 (.inr ⟨h, fun en => ?_⟩)
                        have := split_parts t.toList oc (by rw [hsp]; exact List.mem_cons_self)
                        rw [en, String.toList_ofList] at hc
                        exact this hc
            · exact h
      exact gen texts { db := db' } hm
    unfold oarproperty finish
    split
    · exact hm
    · exact this

example : Good "a, b=c" ∧ ¬ Blank "a, b=c" ∧ ',' ∈ "a, b=c".toList := by
  refine ⟨⟨by decide, by decide⟩, ?_, by decide⟩
  rintro ⟨c, hc, h⟩
  have : c = 'a' := by simpa using hc.symm
  subst this; revert h; decide

/-- C84, refuted. A property added cannot be renamed by the same command, which stops with exit status 0. -/
theorem add_rename_violated (db : DB) (x : String × String) (h : Good x.1 ∧ ¬ Blank x.1 ∧ x.1 ≠ "" ∧ x.1 ∉ db.tab.names ∧ ',' ∉ x.1.toList)
    (h2 : Good x.2 ∧ ',' ∉ x.2.toList) (hx : x.2 ≠ x.1) (hx2 : x.2 ∉ db.tab.names) :
    x.1 ∈ (oarproperty db { add := [x.1], rename := [pair x] }).db.tab.names ∧
    x.2 ∉ (oarproperty db { add := [x.1], rename := [pair x] }).db.tab.names ∧
    status (oarproperty db { add := [x.1], rename := [pair x] }) = 0 := by
  obtain ⟨g, b, ne, nn, nc⟩ := h
  obtain ⟨a1, a2, a3, _⟩ := add_fold db.tab.names false [x.1] { db := db } rfl (by simp) (by
    intro m hm; simp only [List.mem_singleton] at hm; subst hm; exact ⟨nn, nn, g, ne, b⟩)
  have eb : blocks db { add := [x.1], rename := [pair x] } = renOne db.tab.names ([x.1].foldl (addOne db.tab.names false) { db := db }) (pair x) := by
    simp only [blocks, List.foldl_cons, List.foldl_nil]
  obtain ⟨s, hs⟩ : ∃ s, s = [x.1].foldl (addOne db.tab.names false) { db := db } := ⟨_, rfl⟩
  rw [← hs] at a1 a2 a3 eb
  clear hs
  have er : renOne db.tab.names s (pair x) = { s with exits := s.exits ++ [0], stop := .ret } := by
    unfold renOne
    rw [if_neg (fun hc => hc a1), split_pair x nc h2.2]
    dsimp only
    rw [String.ofList_toList, String.ofList_toList, if_neg (by rw [good_refused g, good_refused h2.1]; exact Bool.false_ne_true), if_pos nn]
  rw [er] at eb
  rw [out_of eb (show Stop.ret ≠ Stop.raised by decide)]
  have hnames : s.db.tab.names = db.tab.names ++ [x.1] := by
    unfold Tab.names; rw [a3]; simp
  refine ⟨?_, ?_, ?_⟩
  · show x.1 ∈ s.db.tab.names
    rw [hnames]; exact List.mem_append_right _ List.mem_cons_self
  · show x.2 ∉ s.db.tab.names
    rw [hnames]
    intro hc
    rcases List.mem_append.1 hc with h | h
    · exact hx2 h
    · exact hx (by simpa using h)
  · show (Cli.exitValue ⟨s.exits ++ [0], 0⟩).1 = 0
    refine exit_zeros _ ?_
    intro e he
    have he' : e ∈ s.exits ++ [0] := he
    rw [a2] at he'
    simpa using he'

/-- C84, refuted. A property asked by jobs can be deleted: the requests keep a name that is no property. -/
theorem delete_used_violated (db : DB) (n : String) (hg : Good n) (h : n ∈ db.tab.names) (j : Nat) (hj : (j, n) ∈ db.descs) :
    status (oarproperty db { delete := [n] }) = 0 ∧ (j, n) ∈ (oarproperty db { delete := [n] }).db.descs ∧
    n ∉ (oarproperty db { delete := [n] }).db.tab.names := by
  have e := exact db [n] [] [] false ⟨by simp, by
    intro m hm; simp only [List.mem_singleton] at hm; subst hm; exact ⟨h, hg⟩, by simp, by simp, by simp, by simp, by simp⟩
  have ea : ({ delete := [n] } : Args) = { delete := [n], add := [], varchar := false, rename := ([] : List (String × String)).map pair } := rfl
  rw [ea]
  refine ⟨e.1, ?_, ?_⟩
  · rw [e.2.2.2.2.2]
    exact List.mem_map.2 ⟨(j, n), hj, rfl⟩
  · unfold Tab.names
    rw [e.2.1]
    intro hc
    obtain ⟨x, hx, en⟩ := List.mem_map.1 hc
    simp only [List.map_nil, List.append_nil] at hx
    obtain ⟨y, hy, rfl⟩ := List.mem_map.1 hx
    have := (List.mem_filter.1 hy).2
    have e2 : y.1 = n := en
    simp [e2] at this

end Oar.OarProperty
