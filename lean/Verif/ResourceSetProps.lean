import Verif.ResourceSet

/-!
# C30, C59: numbering of the resources, constraints of the jobs
-/

namespace Oar.ResSet

/-! ## Specification -/

/-- The resource at the ordered number `k` is usable and satisfies `p`. -/
def Has (rs : List Res) (p : Res → Prop) (k : Nat) : Prop := ∃ r, rs[k]? = some r ∧ r.usable = true ∧ p r

/-- `d` groups the usable resources by the value of `f`: each value once, each block is the set of the resources with this value, without
repetition and in order. -/
def Groups {α : Type} (rs : List Res) (f : Res → α) (d : List (α × List Nat)) : Prop :=
  (d.map Prod.fst).Nodup ∧ (∀ v l, (v, l) ∈ d → l ≠ [] ∧ l.Pairwise (· < ·) ∧ ∀ k, k ∈ l ↔ Has rs (fun r => f r = v) k) ∧
  ∀ (k : Nat) (r : Res), rs[k]? = some r → r.usable = true → f r ∈ d.map Prod.fst

/-! ## The invariant of the loop -/

theorem has_append {rs : List Res} {r : Res} {p : Res → Prop} {k : Nat} :
    Has (rs ++ [r]) p k ↔ Has rs p k ∨ (k = rs.length ∧ r.usable = true ∧ p r) := by
  unfold Has
  constructor
  · rintro ⟨x, hx, h1, h2⟩
    by_cases hk : k < rs.length
    · rw [List.getElem?_append_left hk] at hx
      exact Or.inl ⟨x, hx, h1, h2⟩
    · rw [List.getElem?_append_right (by omega)] at hx
      have : k - rs.length = 0 := by
        cases hm : k - rs.length with
        | zero => rfl
        | succ n => rw [hm] at hx; simp at hx
      rw [this] at hx
      simp only [List.getElem?_cons_zero, Option.some.injEq] at hx
      subst hx
      exact Or.inr ⟨by omega, h1, h2⟩
  · rintro (⟨x, hx, h1, h2⟩ | ⟨rfl, h1, h2⟩)
    · have hk : k < rs.length := by
        rw [List.getElem?_eq_some_iff] at hx
        exact hx.1
      exact ⟨x, by rw [List.getElem?_append_left hk]; exact hx, h1, h2⟩
    · exact ⟨r, by simp, h1, h2⟩

theorem has_lt {rs : List Res} {p : Res → Prop} {k : Nat} (h : Has rs p k) : k < rs.length := by
  obtain ⟨r, hr, _⟩ := h
  exact (List.getElem?_eq_some_iff.1 hr).1

theorem groupAdd_keys {α : Type} [DecidableEq α] (v : α) (k : Nat) (d : List (α × List Nat)) :
    (groupAdd v k d).map Prod.fst = if v ∈ d.map Prod.fst then d.map Prod.fst else d.map Prod.fst ++ [v] := by
  induction d with
  | nil => simp [groupAdd]
  | cons p r ih =>
    obtain ⟨w, l⟩ := p
    unfold groupAdd
    by_cases h : w = v
    · subst h
      simp
    · rw [if_neg h, List.map_cons, ih]
      have h' : ¬ v = w := fun e => h e.symm
      by_cases hm : v ∈ r.map Prod.fst
      · rw [if_pos hm, if_pos (by simp only [List.map_cons, List.mem_cons]; exact Or.inr hm)]
        rfl
      · rw [if_neg hm, if_neg (by simp only [List.map_cons, List.mem_cons, not_or]; exact ⟨h', hm⟩)]
        rfl

theorem mem_groupAdd {α : Type} [DecidableEq α] {v : α} {k : Nat} {d : List (α × List Nat)} (hn : (d.map Prod.fst).Nodup) {w : α} {l : List Nat} :
    (w, l) ∈ groupAdd v k d ↔ (w ≠ v ∧ (w, l) ∈ d) ∨ (w = v ∧ ((∃ l', (v, l') ∈ d ∧ l = l' ++ [k]) ∨ (v ∉ d.map Prod.fst ∧ l = [k]))) := by
  induction d with
  | nil => simp [groupAdd]
  | cons p r ih =>
    obtain ⟨x, m⟩ := p
    simp only [List.map_cons, List.nodup_cons] at hn
    have ih := ih hn.2
    unfold groupAdd
    by_cases h : x = v
    · subst h
      rw [if_pos rfl]
      have hx : ∀ l', (x, l') ∉ r := fun l' hm => hn.1 (List.mem_map.2 ⟨_, hm, rfl⟩)
      simp only [List.mem_cons, Prod.mk.injEq, List.map_cons, true_or, not_true, false_and, or_false]
      grind
    · rw [if_neg h]
      simp only [List.mem_cons, Prod.mk.injEq, List.map_cons, ih]
      grind

theorem groups_add {α : Type} [DecidableEq α] {rs : List Res} {f : Res → α} {d : List (α × List Nat)} {r : Res} (h : Groups rs f d) (hu : r.usable = true) :
    Groups (rs ++ [r]) f (groupAdd (f r) rs.length d) := by
  obtain ⟨h1, h2, h3⟩ := h
  refine ⟨?_, ?_, ?_⟩
  · rw [groupAdd_keys]
    split
    · exact h1
    · rename_i hm
      rw [List.nodup_append]
      refine ⟨h1, by simp, fun a ha b hb e => ?_⟩
      rw [List.mem_singleton] at hb
      exact hm (by rw [← hb, ← e]; exact ha)
  · intro v l hm
    rw [mem_groupAdd h1] at hm
    rcases hm with ⟨hv, hm⟩ | ⟨rfl, hm⟩
    · obtain ⟨h4, h5, h6⟩ := h2 v l hm
      refine ⟨h4, h5, fun k => ?_⟩
      rw [has_append, ← h6]
      constructor
      · exact Or.inl
      · rintro (h | ⟨_, _, h⟩)
        · exact h
        · exact absurd h.symm hv
    · rcases hm with ⟨l', hm, rfl⟩ | ⟨hm, rfl⟩
      · obtain ⟨h4, h5, h6⟩ := h2 _ l' hm
        refine ⟨by simp, ?_, fun k => ?_⟩
        · rw [List.pairwise_append]
          refine ⟨h5, by simp, fun a ha b hb => ?_⟩
          rw [List.mem_singleton] at hb
          rw [hb]
          exact has_lt ((h6 a).1 ha)
        · rw [has_append, ← h6, List.mem_append, List.mem_singleton]
          simp [hu]
      · refine ⟨by simp, by simp, fun k => ?_⟩
        rw [has_append, List.mem_singleton]
        constructor
        · intro e
          exact Or.inr ⟨e, hu, rfl⟩
        · rintro (⟨x, hx, hxu, hxf⟩ | ⟨e, _, _⟩)
          · exact absurd (hxf ▸ h3 k x hx hxu) hm
          · exact e
  · intro k x hx hxu
    rw [groupAdd_keys]
    have : Has (rs ++ [r]) (fun y => y = x) k := ⟨x, hx, hxu, rfl⟩
    rw [has_append] at this
    rcases this with ⟨y, hy, hyu, rfl⟩ | ⟨_, _, rfl⟩
    · have := h3 k y hy hyu
      split
      · exact this
      · exact List.mem_append_left _ this
    · split
      · assumption
      · simp

theorem groups_skip {α : Type} {rs : List Res} {f : Res → α} {d : List (α × List Nat)} {r : Res} (h : Groups rs f d) (hu : r.usable = false) :
    Groups (rs ++ [r]) f d := by
  have hh : ∀ p k, Has (rs ++ [r]) p k ↔ Has rs p k := by
    intro p k
    rw [has_append]
    simp [hu]
  refine ⟨h.1, fun v l hm => ⟨(h.2.1 v l hm).1, (h.2.1 v l hm).2.1, fun k => by rw [hh]; exact (h.2.1 v l hm).2.2 k⟩, fun k x hx hxu => ?_⟩
  obtain ⟨y, hy, hyu, rfl⟩ := (hh (fun y => y = x) k).1 ⟨x, hx, hxu, rfl⟩
  exact h.2.2 k y hy hyu

/-- A list of ordered numbers is the set of the usable resources that satisfy `p`, in order. -/
def Lists (rs : List Res) (p : Res → Prop) (l : List Nat) : Prop := l.Pairwise (· < ·) ∧ ∀ k, k ∈ l ↔ Has rs p k

theorem lists_add {rs : List Res} {p : Res → Prop} {l : List Nat} {r : Res} (h : Lists rs p l) (hu : r.usable = true) (hp : p r) :
    Lists (rs ++ [r]) p (l ++ [rs.length]) := by
  refine ⟨?_, fun k => ?_⟩
  · rw [List.pairwise_append]
    refine ⟨h.1, by simp, fun a ha b hb => ?_⟩
    rw [List.mem_singleton] at hb
    rw [hb]
    exact has_lt ((h.2 a).1 ha)
  · rw [has_append, ← h.2, List.mem_append, List.mem_singleton]
    simp [hu, hp]

theorem lists_skip {rs : List Res} {p : Res → Prop} {l : List Nat} {r : Res} (h : Lists rs p l) (hn : r.usable = true → ¬ p r) : Lists (rs ++ [r]) p l := by
  refine ⟨h.1, fun k => ?_⟩
  rw [has_append, ← h.2]
  constructor
  · exact Or.inl
  · rintro (h | ⟨_, h1, h2⟩)
    · exact h
    · exact absurd h2 (hn h1)

/-- What is known after the resources `rs`. -/
structure Inv (susp labels : List String) (rs : List Res) (s : RS) : Prop where
  num : ∀ (k : Nat) (r : Res), rs[k]? = some r → r.usable = true → s.i2o r.id = k ∧ s.o2i k = r.id
  zero : ∀ i, (∀ (k : Nat) (r : Res), rs[k]? = some r → r.usable = true → r.id ≠ i) → s.i2o i = 0
  roids : Lists rs (fun _ => True) s.roids
  absent : Lists rs (fun r => r.state = "Absent") s.absent
  suspendable : Lists rs (fun r => r.type ∈ susp) s.suspendable
  defaults : Lists rs (fun r => r.type = "default") s.defaults
  defRids : ∀ i ∈ s.defaultRids, ∃ (k : Nat) (r : Res), rs[k]? = some r ∧ r.usable = true ∧ r.id = i
  labels : s.hy.map Prod.fst = labels
  hy : ∀ l d, (l, d) ∈ s.hy → Groups rs (fun r => r.value l) d
  upto : Groups rs (fun r => r.upto) s.upto
  nbAll : s.nbAll = rs.length
  nbNotDead : s.nbNotDead = rs.countP (fun r => decide (r.state ≠ "Dead"))
  nbDefaultNotDead : s.nbDefaultNotDead = rs.countP (fun r => decide (r.state ≠ "Dead" ∧ r.type = "default"))
  nbAbsent : s.nbAbsent = s.absent.length

theorem inv_init (susp labels : List String) : Inv susp labels [] (init labels) := by
  have hg : ∀ {α : Type} (f : Res → α), Groups [] f [] := fun f => ⟨by simp, by simp, by simp⟩
  have hl : ∀ p, Lists [] p [] := fun p => ⟨by simp, by simp [Has]⟩
  refine ⟨by simp, fun _ _ => rfl, hl _, hl _, hl _, hl _, by simp [init], ?_, ?_, hg _, rfl, rfl, rfl, rfl⟩
  · simp [init, Function.comp_def]
  · intro l d h
    simp only [init, List.mem_map, Prod.mk.injEq] at h
    obtain ⟨_, _, _, rfl⟩ := h
    exact hg _

theorem getElem?_concat {rs : List Res} {r x : Res} {k : Nat} (h : (rs ++ [r])[k]? = some x) : rs[k]? = some x ∨ (k = rs.length ∧ x = r) := by
  by_cases hk : k < rs.length
  · rw [List.getElem?_append_left hk] at h
    exact Or.inl h
  · rw [List.getElem?_append_right (by omega)] at h
    cases hm : k - rs.length with
    | zero =>
      rw [hm] at h
      simp only [List.getElem?_cons_zero, Option.some.injEq] at h
      exact Or.inr ⟨by omega, h.symm⟩
    | succ n => rw [hm] at h; simp at h

theorem inv_add {susp labels : List String} {rs : List Res} {s s' : RS} {r : Res} (h : Inv susp labels rs s) (hid : ∀ x ∈ rs, x.id ≠ r.id)
    (ha : addRes susp rs.length r s = some s') : Inv susp labels (rs ++ [r]) s' := by
  unfold addRes at ha
  dsimp only at ha
  have cnt : ∀ (p : Res → Bool), (rs ++ [r]).countP p = rs.countP p + if p r = true then 1 else 0 := by
    intro p
    rw [List.countP_append, List.countP_cons, List.countP_nil]
    omega
  by_cases hu : r.usable = true
  · rw [if_pos hu] at ha
    split at ha
    · injection ha with ha
      subst ha
      have hdef : ∀ i ∈ s.defaultRids, i ≠ r.id := by
        intro i hi e
        obtain ⟨k, x, hx, _, hxi⟩ := h.defRids i hi
        exact hid x (List.mem_of_getElem? hx) (by rw [hxi, e])
      refine { num := ?_, zero := ?_, roids := lists_add h.roids hu trivial, absent := ?_, suspendable := ?_, defaults := ?_, defRids := ?_, labels := ?_, hy := ?_,
               upto := groups_add h.upto hu, nbAll := ?_, nbNotDead := ?_, nbDefaultNotDead := ?_, nbAbsent := ?_ }
      · intro k x hx hxu
        rcases getElem?_concat hx with hx | ⟨rfl, rfl⟩
        · have hk := (List.getElem?_eq_some_iff.1 hx).1
          have hne := hid x (List.mem_of_getElem? hx)
          show (if x.id = r.id then _ else s.i2o x.id) = k ∧ (if k = rs.length then _ else s.o2i k) = x.id
          rw [if_neg hne, if_neg (by omega)]
          exact h.num k x hx hxu
        · show (if x.id = x.id then _ else _) = _ ∧ (if rs.length = rs.length then _ else _) = _
          rw [if_pos rfl, if_pos rfl]
          exact ⟨rfl, rfl⟩
      · intro i hi
        show (if i = r.id then _ else s.i2o i) = 0
        rw [if_neg (fun e => hi rs.length r (by simp) hu e.symm)]
        refine h.zero i (fun k x hx hxu => hi k x ?_ hxu)
        rw [List.getElem?_append_left (List.getElem?_eq_some_iff.1 hx).1]
        exact hx
      · show Lists _ _ (if r.state = "Absent" then s.absent ++ [rs.length] else s.absent)
        split
        · exact lists_add h.absent hu (by assumption)
        · exact lists_skip h.absent (fun _ => by assumption)
      · show Lists _ _ (if r.type ∈ susp then s.suspendable ++ [rs.length] else s.suspendable)
        split
        · exact lists_add h.suspendable hu (by assumption)
        · exact lists_skip h.suspendable (fun _ => by assumption)
      · show Lists _ _ ((if r.type = "default" then s.defaultRids ++ [r.id] else s.defaultRids).map (fun i => if i = r.id then rs.length else s.i2o i))
        have hmap : s.defaultRids.map (fun i => if i = r.id then rs.length else s.i2o i) = s.defaults := by
          unfold RS.defaults
          apply List.map_congr_left
          intro i hi
          rw [if_neg (hdef i hi)]
        split
        · rw [List.map_append, hmap]
          simp only [List.map_cons, List.map_nil, if_true]
          exact lists_add h.defaults hu (by assumption)
        · rw [hmap]
          exact lists_skip h.defaults (fun _ => by assumption)
      · intro i hi
        have hi : i ∈ (if r.type = "default" then s.defaultRids ++ [r.id] else s.defaultRids) := hi
        have old : ∀ i ∈ s.defaultRids, ∃ (k : Nat) (x : Res), (rs ++ [r])[k]? = some x ∧ x.usable = true ∧ x.id = i := by
          intro i hi
          obtain ⟨k, x, hx, h1, h2⟩ := h.defRids i hi
          exact ⟨k, x, by rw [List.getElem?_append_left (List.getElem?_eq_some_iff.1 hx).1]; exact hx, h1, h2⟩
        split at hi
        · rcases List.mem_append.1 hi with hi | hi
          · exact old i hi
          · exact ⟨rs.length, r, by simp, hu, (List.mem_singleton.1 hi).symm⟩
        · exact old i hi
      · show ((s.hy.map (fun p => (p.1, groupAdd (r.value p.1) rs.length p.2))).map Prod.fst) = labels
        rw [List.map_map]
        exact h.labels
      · intro l d hm
        have hm : (l, d) ∈ s.hy.map (fun p => (p.1, groupAdd (r.value p.1) rs.length p.2)) := hm
        simp only [List.mem_map, Prod.mk.injEq] at hm
        obtain ⟨p, hp, rfl, rfl⟩ := hm
        exact groups_add (h.hy p.1 p.2 hp) hu
      · show s.nbAll + 1 = _
        rw [h.nbAll]
        simp
      · show (if r.state ≠ "Dead" then s.nbNotDead + 1 else s.nbNotDead) = _
        rw [cnt, h.nbNotDead]
        by_cases e : r.state = "Dead" <;> simp [e]
      · show (if r.state ≠ "Dead" ∧ r.type = "default" then s.nbDefaultNotDead + 1 else s.nbDefaultNotDead) = _
        rw [cnt, h.nbDefaultNotDead]
        by_cases e : r.state = "Dead" <;> by_cases e' : r.type = "default" <;> simp [e, e']
      · show (if r.state = "Absent" then s.nbAbsent + 1 else s.nbAbsent) = (if r.state = "Absent" then s.absent ++ [rs.length] else s.absent).length
        rw [h.nbAbsent]
        split <;> simp
    · simp at ha
  · rw [if_neg hu] at ha
    have hu : r.usable = false := by simpa using hu
    injection ha with ha
    subst ha
    have ls : ∀ {p l}, Lists rs p l → Lists (rs ++ [r]) p l := fun h => lists_skip h (fun e => by rw [hu] at e; simp at e)
    have cl : ∀ (k : Nat) (x : Res), (rs ++ [r])[k]? = some x → x.usable = true → rs[k]? = some x := by
      intro k x hx hxu
      rcases getElem?_concat hx with hx | ⟨rfl, rfl⟩
      · exact hx
      · rw [hu] at hxu; simp at hxu
    refine { num := fun k x hx hxu => h.num k x (cl k x hx hxu) hxu, zero := fun i hi => h.zero i (fun k x hx hxu => hi k x ?_ hxu), roids := ls h.roids,
             absent := ls h.absent, suspendable := ls h.suspendable, defaults := ls h.defaults, defRids := ?_, labels := h.labels,
             hy := fun l d hm => groups_skip (h.hy l d hm) hu, upto := groups_skip h.upto hu, nbAll := ?_, nbNotDead := ?_, nbDefaultNotDead := ?_, nbAbsent := h.nbAbsent }
    · rw [List.getElem?_append_left (List.getElem?_eq_some_iff.1 hx).1]
      exact hx
    · intro i hi
      obtain ⟨k, x, hx, h1, h2⟩ := h.defRids i hi
      exact ⟨k, x, by rw [List.getElem?_append_left (List.getElem?_eq_some_iff.1 hx).1]; exact hx, h1, h2⟩
    · show s.nbAll + 1 = _
      rw [h.nbAll]
      simp
    · show (if r.state ≠ "Dead" then s.nbNotDead + 1 else s.nbNotDead) = _
      rw [cnt, h.nbNotDead]
      by_cases e : r.state = "Dead" <;> simp [e]
    · show (if r.state ≠ "Dead" ∧ r.type = "default" then s.nbDefaultNotDead + 1 else s.nbDefaultNotDead) = _
      rw [cnt, h.nbDefaultNotDead]
      by_cases e : r.state = "Dead" <;> by_cases e' : r.type = "default" <;> simp [e, e']

theorem inv_load {susp labels : List String} : ∀ (rs pre : List Res) (s s' : RS), Inv susp labels pre s → ((pre ++ rs).map Res.id).Nodup →
    load susp pre.length rs s = some s' → Inv susp labels (pre ++ rs) s'
  | [], pre, s, s', h, _, hl => by
    simp only [load, Option.some.injEq] at hl
    subst hl
    rw [List.append_nil]
    exact h
  | r :: rs, pre, s, s', h, hn, hl => by
    simp only [load] at hl
    cases ha : addRes susp pre.length r s with
    | none => rw [ha] at hl; simp at hl
    | some s1 =>
      rw [ha, Option.bind_some] at hl
      have hid : ∀ x ∈ pre, x.id ≠ r.id := by
        intro x hx e
        rw [List.map_append, List.nodup_append] at hn
        exact hn.2.2 x.id (List.mem_map.2 ⟨x, hx, rfl⟩) r.id (by simp) e
      have h1 := inv_add h hid ha
      have := inv_load rs (pre ++ [r]) s1 s' h1 (by simpa using hn) (by simpa using hl)
      simpa using this

theorem build_inv {susp labels : List String} {rs : List Res} {s : RS} (hn : (rs.map Res.id).Nodup) (h : build susp labels rs = some s) : Inv susp labels rs s := by
  have := inv_load rs [] (init labels) s (inv_init susp labels) (by simpa using hn) (by simpa [build] using h)
  simpa using this

/-! ## The theorems -/

/-- The two numberings are inverse of each other on the usable resources, and the full set is the set of their ordered numbers. -/
theorem numbering_inverse {susp labels : List String} {rs : List Res} {s : RS} (hn : (rs.map Res.id).Nodup) (h : build susp labels rs = some s) :
    (∀ k, k ∈ s.roids ↔ ∃ r, rs[k]? = some r ∧ (r.state = "Alive" ∨ r.state = "Absent")) ∧
    (∀ k ∈ s.roids, s.i2o (s.o2i k) = k) ∧ (∀ (k : Nat) (r : Res), rs[k]? = some r → r.state = "Alive" ∨ r.state = "Absent" → s.i2o r.id = k ∧ s.o2i k = r.id) ∧
    (∀ r ∈ rs, r.state = "Alive" ∨ r.state = "Absent" → s.i2o r.id ∈ s.roids ∧ s.o2i (s.i2o r.id) = r.id) := by
  have inv := build_inv hn h
  have hus : ∀ r : Res, r.usable = true ↔ r.state = "Alive" ∨ r.state = "Absent" := by
    intro r
    simp [Res.usable]
  have hro : ∀ k, k ∈ s.roids ↔ ∃ r, rs[k]? = some r ∧ r.usable = true := by
    intro k
    rw [inv.roids.2]
    unfold Has
    simp
  refine ⟨?_, ?_, ?_, ?_⟩
  · intro k
    rw [hro]
    simp only [hus]
  · intro k hk
    obtain ⟨r, hr, hu⟩ := (hro k).1 hk
    obtain ⟨h1, h2⟩ := inv.num k r hr hu
    rw [h2, h1]
  · intro k r hr hu
    exact inv.num k r hr ((hus r).2 hu)
  · intro r hr hu
    obtain ⟨k, hk, hrk⟩ := List.getElem_of_mem hr
    have hk' : rs[k]? = some r := by rw [List.getElem?_eq_getElem hk, hrk]
    obtain ⟨h1, h2⟩ := inv.num k r hk' ((hus r).2 hu)
    rw [h1]
    exact ⟨(hro k).2 ⟨r, hk', (hus r).2 hu⟩, h2⟩

/-- Each level of the hierarchy is there, and its blocks partition the usable resources by the value of the property. -/
theorem hierarchy_partition {susp labels : List String} {rs : List Res} {s : RS} (hn : (rs.map Res.id).Nodup) (h : build susp labels rs = some s) :
    s.hy.map Prod.fst = labels ∧ ∀ l d, (l, d) ∈ s.hy →
      (∀ k, k ∈ s.roids ↔ ∃ v b, (v, b) ∈ d ∧ k ∈ b) ∧
      (∀ v b v' b' k, (v, b) ∈ d → (v', b') ∈ d → k ∈ b → k ∈ b' → v = v' ∧ b = b') ∧
      (∀ v b, (v, b) ∈ d → b ≠ [] ∧ b.Pairwise (· < ·) ∧ ∀ k ∈ b, ∃ r, rs[k]? = some r ∧ r.value l = v) := by
  have inv := build_inv hn h
  refine ⟨inv.labels, fun l d hd => ?_⟩
  obtain ⟨g1, g2, g3⟩ := inv.hy l d hd
  refine ⟨fun k => ?_, ?_, ?_⟩
  · rw [inv.roids.2]
    constructor
    · rintro ⟨r, hr, hu, _⟩
      have := g3 k r hr hu
      obtain ⟨⟨v, b⟩, hm, hv⟩ := List.mem_map.1 this
      exact ⟨v, b, hm, ((g2 v b hm).2.2 k).2 ⟨r, hr, hu, hv.symm⟩⟩
    · rintro ⟨v, b, hm, hk⟩
      obtain ⟨r, hr, hu, _⟩ := ((g2 v b hm).2.2 k).1 hk
      exact ⟨r, hr, hu, trivial⟩
  · intro v b v' b' k hm hm' hk hk'
    obtain ⟨r, hr, _, hv⟩ := ((g2 v b hm).2.2 k).1 hk
    obtain ⟨r', hr', _, hv'⟩ := ((g2 v' b' hm').2.2 k).1 hk'
    rw [hr] at hr'
    cases hr'
    have e : v = v' := hv.symm.trans hv'
    subst e
    refine ⟨rfl, ?_⟩
    obtain ⟨i, hi, hi'⟩ := List.getElem_of_mem hm
    obtain ⟨j, hj, hj'⟩ := List.getElem_of_mem hm'
    have hij : i = j := by
      refine (List.getElem_inj (h₀ := by simpa using hi) (h₁ := by simpa using hj) g1).1 ?_
      simp [hi', hj']
    subst hij
    have := hi'.symm.trans hj'
    exact (Prod.mk.inj this).2
  · intro v b hm
    obtain ⟨h4, h5, h6⟩ := g2 v b hm
    refine ⟨h4, h5, fun k hk => ?_⟩
    obtain ⟨r, hr, _, hv⟩ := (h6 k).1 hk
    exact ⟨r, hr, hv⟩

/-- The other sets: absent, suspendable and default resources; blocks of equal end of availability; numbers of resources. -/
theorem resource_sets {susp labels : List String} {rs : List Res} {s : RS} (hn : (rs.map Res.id).Nodup) (h : build susp labels rs = some s) :
    (∀ k, k ∈ s.absent ↔ ∃ r, rs[k]? = some r ∧ r.state = "Absent") ∧
    (∀ k, k ∈ s.suspendable ↔ ∃ r, rs[k]? = some r ∧ r.usable = true ∧ r.type ∈ susp) ∧
    (∀ k, k ∈ s.defaults ↔ ∃ r, rs[k]? = some r ∧ r.usable = true ∧ r.type = "default") ∧
    (∀ u b, (u, b) ∈ s.upto → ∀ k, k ∈ b ↔ ∃ r, rs[k]? = some r ∧ r.usable = true ∧ r.upto = u) ∧
    (∀ k ∈ s.roids, ∃ u b, (u, b) ∈ s.upto ∧ k ∈ b) ∧
    s.nbAll = rs.length ∧ s.nbDefaultNotDead = rs.countP (fun r => decide (r.state ≠ "Dead" ∧ r.type = "default")) := by
  have inv := build_inv hn h
  refine ⟨fun k => ?_, inv.suspendable.2, inv.defaults.2, fun u b hm k => (inv.upto.2.1 u b hm).2.2 k, ?_, inv.nbAll, inv.nbDefaultNotDead⟩
  · rw [inv.absent.2]
    constructor
    · rintro ⟨r, hr, _, ha⟩
      exact ⟨r, hr, ha⟩
    · rintro ⟨r, hr, ha⟩
      exact ⟨r, hr, by simp [Res.usable, ha], ha⟩
  · intro k hk
    obtain ⟨r, hr, hu, _⟩ := (inv.roids.2 k).1 hk
    obtain ⟨⟨u, b⟩, hm, hv⟩ := List.mem_map.1 (inv.upto.2.2 k r hr hu)
    exact ⟨u, b, hm, ((inv.upto.2.1 u b hm).2.2 k).2 ⟨r, hr, hu, hv.symm⟩⟩

theorem load_total (susp : List String) : ∀ (rs : List Res) (k : Nat) (s : RS), (∀ r ∈ rs, r.id < 100000) → k + rs.length ≤ 100000 → ∃ s', load susp k rs s = some s'
  | [], _, s, _, _ => ⟨s, rfl⟩
  | r :: rs, k, s, hi, hk => by
    have h1 : ∃ s1, addRes susp k r s = some s1 := by
      unfold addRes
      dsimp only
      split
      · rw [if_pos ⟨hi r (by simp), by simp at hk; unfold maxRes; omega⟩]
        exact ⟨_, rfl⟩
      · exact ⟨_, rfl⟩
    obtain ⟨s1, h1⟩ := h1
    obtain ⟨s2, h2⟩ := load_total susp rs (k + 1) s1 (fun x hx => hi x (by simp [hx])) (by simp at hk; omega)
    exact ⟨s2, by rw [load, h1, Option.bind_some, h2]⟩

/-- The structures can be built when the identifiers are less than 100000. -/
theorem build_total (susp labels : List String) (rs : List Res) (hi : ∀ r ∈ rs, r.id < 100000) (hl : rs.length ≤ 100000) : ∃ s, build susp labels rs = some s :=
  load_total susp rs 0 _ hi (by omega)

/-- Otherwise the scheduler fails, even with one resource. -/
theorem large_id_violated : (build ["default"] ["id"] [⟨100000, "Alive", "default", 0, "n1", fun _ => ""⟩]).isNone = true := by decide

/-- Four resources, one Suspected, in two nodes. -/
def exRes : List Res :=
  [⟨3, "Alive", "default", 0, "n1", fun _ => "a"⟩, ⟨1, "Suspected", "default", 0, "n1", fun _ => "a"⟩, ⟨2, "Absent", "default", 50, "n2", fun _ => "b"⟩,
   ⟨7, "Alive", "licence", 0, "n2", fun _ => "b"⟩]

example : (exRes.map Res.id).Nodup ∧ (build ["default"] ["id", "network_address"] exRes).map (fun s => (s.roids, s.absent, s.defaults, s.suspendable)) =
      some ([0, 2, 3], [2], [0, 2], [0, 2]) ∧
    (build ["default"] ["network_address"] exRes).map (fun s => (s.hy, [s.i2o 3, s.i2o 2, s.i2o 7], [s.o2i 0, s.o2i 2, s.o2i 3], s.nbDefaultNotDead)) =
      some ([("network_address", [("n1", [0]), ("n2", [2, 3])])], [0, 2, 3], [3, 2, 7], 3) :=
  ⟨by decide, by decide, rfl⟩

/-- The number of default resources, used by the quotas in one of the two modes, is 1 whatever the resources are. -/
theorem default_count_violated : (exRes.filter (fun r => r.usable && r.type == "default")).length = 2 ∧
    (build ["default"] ["id"] exRes).map RS.nbDefault = some 1 := by decide

/-- An unusable resource has the number of another one. -/
theorem unusable_confused_violated : ∃ (rs : List Res) (s : RS) (r r' : Res), build ["default"] ["id"] rs = some s ∧ r ∈ rs ∧ r' ∈ rs ∧ r.id ≠ r'.id ∧
    (rs.map Res.id).Nodup ∧ s.i2o r.id = s.i2o r'.id ∧ s.i2o r.id ∈ s.roids :=
  ⟨exRes, _, ⟨1, "Suspected", "default", 0, "n1", fun _ => "a"⟩, ⟨3, "Alive", "default", 0, "n1", fun _ => "a"⟩, rfl, by simp [exRes], by simp [exRes], by decide,
    by decide, by decide, by decide⟩

/-! ## Constraints -/

/-- Specification: the job may use the resource `r`: both its conditions hold (the default type is required when there is none). -/
def Allowed (p g : Cond) (r : Res) : Prop := if p = [] ∧ g = [] then r.type = "default" else (p = [] ∨ p.eval r = true) ∧ (g = [] ∨ g.eval r = true)

theorem textAnd_eval (p g : Cond) (hp : p.length ≤ 1) (hg : g.length ≤ 1) (h : ¬ (p = [] ∧ g = [])) (r : Res) :
    (textAnd p g).eval r = true ↔ (p = [] ∨ p.eval r = true) ∧ (g = [] ∨ g.eval r = true) := by
  match p, g, hp, hg with
  | [], [], _, _ => exact absurd ⟨rfl, rfl⟩ h
  | [], [b], _, _ => simp [textAnd]
  | [a], [], _, _ => simp [textAnd]
  | [a], [b], _, _ => simp [textAnd, Cond.eval, List.all_append]

/-- When every resource is usable, and no condition contains an OR, the constraints are exactly the resources allowed. -/
theorem constraints_exact_partial {susp labels : List String} {rs : List Res} {s : RS} (hn : (rs.map Res.id).Nodup) (h : build susp labels rs = some s)
    (hu : ∀ r ∈ rs, r.usable = true) (p g : Cond) (hp : p.length ≤ 1) (hg : g.length ≤ 1) (k : Nat) :
    k ∈ constraints s rs p g ↔ ∃ r, rs[k]? = some r ∧ Allowed p g r := by
  have inv := build_inv hn h
  unfold constraints Allowed
  by_cases hc : p = [] ∧ g = []
  · simp only [if_pos hc]
    rw [inv.defaults.2]
    constructor
    · rintro ⟨r, hr, _, ht⟩; exact ⟨r, hr, ht⟩
    · rintro ⟨r, hr, ht⟩; exact ⟨r, hr, hu r (List.mem_of_getElem? hr), ht⟩
  · simp only [if_neg hc]
    have hne : textAnd p g ≠ [] := by
      intro e
      unfold textAnd at e
      split at e
      · rename_i h1
        exact hc ⟨by simpa using h1, e⟩
      · rename_i h1 h2
        exact hc ⟨e, rfl⟩
      · simp at e
    unfold select
    rw [if_neg hne]
    simp only [List.mem_map, List.mem_filter]
    constructor
    · rintro ⟨r, ⟨hr, he⟩, rfl⟩
      obtain ⟨i, hi, hri⟩ := List.getElem_of_mem hr
      have hi' : rs[i]? = some r := by rw [List.getElem?_eq_getElem hi, hri]
      rw [(inv.num i r hi' (hu r hr)).1]
      exact ⟨r, hi', (textAnd_eval p g hp hg hc r).1 he⟩
    · rintro ⟨r, hr, ha⟩
      have hm := List.mem_of_getElem? hr
      exact ⟨r, ⟨hm, (textAnd_eval p g hp hg hc r).2 ha⟩, (inv.num k r hr (hu r hm)).1⟩

/-- The number of the host of a resource. -/
def onHost (h : String) : Res → Bool := fun r => r.host == h

example : ∃ s, build ["default"] ["id"] (exRes.filter Res.usable) = some s ∧ constraints s (exRes.filter Res.usable) [[onHost "n2"]] [] = [1, 2] :=
  ⟨_, rfl, by decide⟩

/-- A job that asks for a node which is Suspected may be given the first resource of the platform, of another node. -/
theorem constraints_unusable_violated : ∃ (rs : List Res) (s : RS) (r : Res), build ["default"] ["id"] rs = some s ∧ rs[0]? = some r ∧
    r.usable = true ∧ onHost "n2" r = false ∧ 0 ∈ constraints s rs [[onHost "n2"]] [] :=
  ⟨[⟨1, "Alive", "default", 0, "n1", fun _ => ""⟩, ⟨2, "Suspected", "default", 0, "n2", fun _ => ""⟩], _, ⟨1, "Alive", "default", 0, "n1", fun _ => ""⟩,
    rfl, rfl, by decide, by decide, by decide⟩

/-- The two conditions are joined without parentheses: with an OR in the properties of the job, a resource that does not satisfy the condition of
the group is allowed; with an OR in the condition of the group, one that does not satisfy the properties of the job (for instance those
added by the administrator) is allowed. -/
theorem constraints_or_violated : ∃ (rs : List Res) (s : RS) (p g : Cond) (r : Res), build ["default"] ["id"] rs = some s ∧ rs[0]? = some r ∧
    r.usable = true ∧ p.eval r = false ∧ 0 ∈ constraints s rs p g ∧ g.eval r = true :=
  ⟨[⟨1, "Alive", "default", 0, "n1", fun _ => ""⟩, ⟨2, "Alive", "default", 0, "n2", fun _ => ""⟩], _, [[onHost "n2"]], [[onHost "n2"], [onHost "n1"]],
    ⟨1, "Alive", "default", 0, "n1", fun _ => ""⟩, rfl, rfl, by decide, by decide, by decide, by decide⟩

end Oar.ResSet
