import Verif.ResourcesSpec

/-! # Lemmas on the histories of resources -/

namespace Oar.Res

/-- The values followed by the log. -/
def Res.vals (r : Res) : Nat × (String → Option String) := (r.id, fun a => if a = "state" then some r.state else r.prop a)

abbrev Tab := List (Nat × (String → Option String))

def RDB.tab (w : RDB) : Tab := w.res.map Res.vals

/-- The intervals of one channel. -/
def chan (log : List RLog) (i : Nat) (a : String) : List RLog := log.filter (fun l => l.rid == i && l.attr == a)

/-- The invariant. -/
structure Inv (api : Bool) (t : Int) (tab : Tab) (log : List RLog) : Prop where
  ids : (tab.map Prod.fst).Pairwise (· < ·)
  known : ∀ l ∈ log, ∃ x ∈ tab, x.1 = l.rid
  vals : ∀ x ∈ tab, ∀ a, a ≠ "maintenance" → chan log x.1 a = [] ∨ ∃ v, x.2 a = some v ∧ Consecutive v t (chan log x.1 a)
  state : api = false → ∀ x ∈ tab, chan log x.1 "state" ≠ []

theorem Consecutive.mono {cur : String} {t t' : Int} (hle : t ≤ t') : ∀ {l : List RLog}, Consecutive cur t l → Consecutive cur t' l
  | [], h => h
  | [r], h => by
    obtain ⟨h1, h2, h3, h4⟩ := h
    exact ⟨h1, h2, h3, by omega⟩
  | r :: r' :: rest, h => by
    obtain ⟨h1, h2, h3, h5⟩ := h
    exact ⟨h1, h2, h3, Consecutive.mono hle h5⟩

theorem Inv.mono {api : Bool} {t t' : Int} (hle : t ≤ t') {tab : Tab} {log : List RLog} (h : Inv api t tab log) : Inv api t' tab log :=
  ⟨h.ids, h.known, fun x hx a ha => (h.vals x hx a ha).imp id (fun ⟨v, h1, h2⟩ => ⟨v, h1, h2.mono hle⟩), h.state⟩

/-- Closing the open interval and opening a new one. -/
theorem consecutive_close {cur v a : String} {t now : Int} {i : Nat} (hle : t ≤ now) :
    ∀ {l : List RLog}, Consecutive cur t l →
    Consecutive v now (closeLogs now (fun _ => true) l ++ [⟨i, a, v, now, 0⟩])
  | [], h => h.elim
  | [r], h => by
    obtain ⟨h1, h2, h3, h4⟩ := h
    simp only [closeLogs, List.map_cons, List.map_nil, h1, and_self, if_true, List.cons_append, List.nil_append, Consecutive]
    refine ⟨trivial, h3, by omega, trivial, trivial, by omega, by omega⟩
  | r :: r' :: rest, h => by
    obtain ⟨h1, h2, h3, h5⟩ := h
    have ih := consecutive_close (v := v) (a := a) (i := i) hle h5
    have hr : closeLogs now (fun _ => true) (r :: r' :: rest) = r :: closeLogs now (fun _ => true) (r' :: rest) := by
      unfold closeLogs
      rw [List.map_cons, if_neg (by omega)]
    rw [hr]
    have : ∃ x xs, closeLogs now (fun _ => true) (r' :: rest) = x :: xs ∧ x.start = r'.start := by
      unfold closeLogs
      rw [List.map_cons]
      refine ⟨_, _, rfl, ?_⟩
      split <;> rfl
    obtain ⟨x, xs, hx, hx1⟩ := this
    rw [hx] at ih ⊢
    simp only [List.cons_append] at ih ⊢
    exact ⟨by rw [hx1]; exact h1, h2, h3, ih⟩

theorem closeLogs_chan (now : Int) (c : RLog → Bool) (log : List RLog) (i : Nat) (a : String) :
    chan (closeLogs now c log) i a = closeLogs now c (chan log i a) := by
  unfold chan closeLogs
  rw [List.filter_map]
  congr 1
  apply List.filter_congr
  intro r _
  simp only [Function.comp]
  split <;> rfl

theorem closeLogs_congr (now : Int) {c c' : RLog → Bool} {l : List RLog} (h : ∀ r ∈ l, c r = c' r) :
    closeLogs now c l = closeLogs now c' l := by
  unfold closeLogs
  apply List.map_congr_left
  intro r hr
  rw [h r hr]

theorem closeLogs_none (now : Int) {c : RLog → Bool} {l : List RLog} (h : ∀ r ∈ l, c r = false) : closeLogs now c l = l := by
  unfold closeLogs
  conv => rhs; rw [← List.map_id l]
  apply List.map_congr_left
  intro r hr
  rw [if_neg (by simp [h r hr])]
  rfl

theorem mem_chan {log : List RLog} {i : Nat} {a : String} {r : RLog} : r ∈ chan log i a ↔ r ∈ log ∧ r.rid = i ∧ r.attr = a := by
  unfold chan
  rw [List.mem_filter]
  simp

theorem chan_append (l1 l2 : List RLog) (i : Nat) (a : String) : chan (l1 ++ l2) i a = chan l1 i a ++ chan l2 i a := by
  unfold chan; rw [List.filter_append]

theorem chan_new_same {ids : List Nat} (hd : ids.Nodup) {i : Nat} (hi : i ∈ ids) (a v : String) (now : Int) :
    chan (ids.map (fun i => (⟨i, a, v, now, 0⟩ : RLog))) i a = [⟨i, a, v, now, 0⟩] := by
  induction ids with
  | nil => simp at hi
  | cons x xs ih =>
    rw [List.nodup_cons] at hd
    rw [List.map_cons]
    by_cases hx : x = i
    · subst hx
      unfold chan
      rw [List.filter_cons_of_pos (by simp)]
      congr 1
      rw [List.filter_eq_nil_iff]
      intro l hl
      obtain ⟨y, hy, rfl⟩ := List.mem_map.1 hl
      simp only [beq_self_eq_true, Bool.and_true, beq_iff_eq]
      rintro rfl
      exact hd.1 hy
    · have := ih hd.2 ((List.mem_cons.1 hi).resolve_left (Ne.symm hx))
      unfold chan at this ⊢
      rw [List.filter_cons_of_neg (by simp [hx])]
      exact this

theorem chan_new_other {ids : List Nat} {i : Nat} {a a' : String} (h : i ∉ ids ∨ a' ≠ a) (v : String) (now : Int) :
    chan (ids.map (fun i => (⟨i, a, v, now, 0⟩ : RLog))) i a' = [] := by
  unfold chan
  rw [List.filter_eq_nil_iff]
  intro l hl
  obtain ⟨y, hy, rfl⟩ := List.mem_map.1 hl
  simp only [Bool.and_eq_true, beq_iff_eq, not_and]
  rintro rfl
  rcases h with h | h
  · exact absurd hy h
  · exact Ne.symm h

/-- Writing the value `v` of the attribute `a` of the resources `ids`. -/
theorem Inv.write {api : Bool} {t now : Int} {tab : Tab} {log : List RLog} (h : Inv api t tab log) (hle : t ≤ now) (hpos : 0 < now)
    {ids : List Nat} (hd : ids.Nodup) (hk : ∀ i ∈ ids, ∃ x ∈ tab, x.1 = i) {a v : String} {c : RLog → Bool}
    (hc : ∀ l ∈ log, c l = true ↔ l.attr = a ∧ l.rid ∈ ids) {tab' : Tab}
    (ht : tab' = tab.map (fun x => if x.1 ∈ ids then (x.1, fun b => if b = a then some v else x.2 b) else x)) :
    Inv api now tab' (closeLogs now c log ++ ids.map (fun i => ⟨i, a, v, now, 0⟩)) := by
  have hfst : tab'.map Prod.fst = tab.map Prod.fst := by
    rw [ht, List.map_map]
    apply List.map_congr_left
    intro x _
    simp only [Function.comp]
    split <;> rfl
  have hknown : ∀ i, (∃ x ∈ tab, x.1 = i) → ∃ x ∈ tab', x.1 = i := by
    intro i hi
    have : i ∈ tab.map Prod.fst := List.mem_map.2 hi
    rw [← hfst] at this
    exact List.mem_map.1 this
  refine ⟨by rw [hfst]; exact h.ids, ?_, ?_, ?_⟩
  · intro l hl
    apply hknown
    rcases List.mem_append.1 hl with hl | hl
    · unfold closeLogs at hl
      obtain ⟨r, hr, rfl⟩ := List.mem_map.1 hl
      obtain ⟨x, hx, e⟩ := h.known r hr
      refine ⟨x, hx, ?_⟩
      rw [e]
      split <;> rfl
    · obtain ⟨i, hi, rfl⟩ := List.mem_map.1 hl
      exact hk i hi
  · intro x' hx' b hb
    rw [ht] at hx'
    obtain ⟨x, hx, rfl⟩ := List.mem_map.1 hx'
    have hid : (if x.1 ∈ ids then (x.1, fun b => if b = a then some v else x.2 b) else x).1 = x.1 := by split <;> rfl
    rw [hid, chan_append, closeLogs_chan]
    by_cases hm : x.1 ∈ ids ∧ b = a
    · rw [if_pos hm.1, hm.2, chan_new_same hd hm.1]
      right
      refine ⟨v, if_pos rfl, ?_⟩
      rw [closeLogs_congr now (c' := fun _ => true) (fun r hr => by
        obtain ⟨h1, h2, h3⟩ := mem_chan.1 hr
        exact (hc r h1).2 ⟨h3, by rw [h2]; exact hm.1⟩)]
      rcases h.vals x hx b hb with e | ⟨u, _, hu⟩
      · rw [← hm.2, e]
        exact ⟨rfl, rfl, hpos, by show now ≤ now; omega⟩
      · rw [hm.2] at hu
        exact consecutive_close hle hu
    · rw [chan_new_other (by
        by_cases h1 : x.1 ∈ ids
        · exact Or.inr (fun e => hm ⟨h1, e⟩)
        · exact Or.inl h1), List.append_nil,
        closeLogs_none now (fun r hr => by
          obtain ⟨h1, h2, h3⟩ := mem_chan.1 hr
          cases hcr : c r with
          | false => rfl
          | true =>
            obtain ⟨g1, g2⟩ := (hc r h1).1 hcr
            exact absurd ⟨by rw [← h2]; exact g2, by rw [← h3]; exact g1⟩ hm)]
      rcases h.vals x hx b hb with e | ⟨u, hu1, hu⟩
      · exact Or.inl e
      · right
        refine ⟨u, ?_, hu.mono hle⟩
        split
        · rename_i h1
          show (if b = a then some v else x.2 b) = some u
          rw [if_neg (fun e => hm ⟨h1, e⟩)]
          exact hu1
        · exact hu1
  · intro hapi x' hx'
    rw [ht] at hx'
    obtain ⟨x, hx, rfl⟩ := List.mem_map.1 hx'
    have hid : (if x.1 ∈ ids then (x.1, fun b => if b = a then some v else x.2 b) else x).1 = x.1 := by split <;> rfl
    rw [hid, chan_append, closeLogs_chan]
    intro e
    have := (List.append_eq_nil_iff.1 e).1
    unfold closeLogs at this
    exact h.state hapi x hx (List.map_eq_nil_iff.1 this)

/-- A log whose rows out of the attribute "maintenance" are the same. -/
theorem Inv.maint {api : Bool} {t : Int} {tab : Tab} {log log' : List RLog} (h : Inv api t tab log)
    (hk : ∀ l ∈ log', ∃ x ∈ tab, x.1 = l.rid) (hs : ∀ i a, a ≠ "maintenance" → chan log' i a = chan log i a) : Inv api t tab log' :=
  ⟨h.ids, hk, fun x hx a ha => by rw [hs _ _ ha]; exact h.vals x hx a ha, fun hapi x hx => by
    rw [hs _ _ (by decide)]; exact h.state hapi x hx⟩

/-- A new resource. -/
theorem Inv.add {api : Bool} {t : Int} {tab : Tab} {log new : List RLog} (h : Inv api t tab log) {x : Nat × (String → Option String)}
    (hid : ∀ y ∈ tab, y.1 < x.1) (hn : ∀ l ∈ new, l.rid = x.1)
    (hv : ∀ a, a ≠ "maintenance" → chan new x.1 a = [] ∨ ∃ v, x.2 a = some v ∧ Consecutive v t (chan new x.1 a))
    (hs : api = false → chan new x.1 "state" ≠ []) : Inv api t (tab ++ [x]) (log ++ new) := by
  have hold : ∀ a, chan log x.1 a = [] := by
    intro a
    unfold chan
    rw [List.filter_eq_nil_iff]
    intro l hl
    obtain ⟨y, hy, e⟩ := h.known l hl
    have := hid y hy
    simp only [Bool.and_eq_true, beq_iff_eq, not_and]
    intro e'
    omega
  have hnew : ∀ y ∈ tab, ∀ a, chan new y.1 a = [] := by
    intro y hy a
    unfold chan
    rw [List.filter_eq_nil_iff]
    intro l hl
    have h1 := hid y hy
    have h2 := hn l hl
    simp only [Bool.and_eq_true, beq_iff_eq, not_and]
    intro e'
    omega
  refine ⟨?_, ?_, ?_, ?_⟩
  · rw [List.map_append, List.pairwise_append]
    refine ⟨h.ids, by simp, ?_⟩
    intro i hi j hj
    obtain ⟨y, hy, rfl⟩ := List.mem_map.1 hi
    have hj' : j = x.1 := by simpa using hj
    rw [hj']
    exact hid y hy
  · intro l hl
    rcases List.mem_append.1 hl with hl | hl
    · obtain ⟨y, hy, e⟩ := h.known l hl
      exact ⟨y, List.mem_append_left _ hy, e⟩
    · exact ⟨x, by simp, (hn l hl).symm⟩
  · intro y hy a ha
    rw [chan_append]
    rcases List.mem_append.1 hy with hy | hy
    · rw [hnew y hy, List.append_nil]
      exact h.vals y hy a ha
    · rw [List.mem_singleton.1 hy, hold, List.nil_append]
      exact hv a ha
  · intro hapi y hy
    rw [chan_append]
    rcases List.mem_append.1 hy with hy | hy
    · rw [hnew y hy, List.append_nil]
      exact h.state hapi y hy
    · rw [List.mem_singleton.1 hy, hold, List.nil_append]
      exact hs hapi

/-- The removal of a resource. -/
theorem Inv.remove {api : Bool} {t : Int} {tab : Tab} {log : List RLog} (h : Inv api t tab log) (i : Nat) :
    Inv api t (tab.filter (fun x => x.1 != i)) (log.filter (fun l => l.rid != i)) := by
  have hch : ∀ j a, j ≠ i → chan (log.filter (fun l => l.rid != i)) j a = chan log j a := by
    intro j a hj
    unfold chan
    rw [List.filter_filter]
    apply List.filter_congr
    intro l _
    by_cases e : l.rid = j
    · simp [e, hj]
    · simp [e]
  refine ⟨?_, ?_, ?_, ?_⟩
  · exact List.Pairwise.sublist (List.Sublist.map _ List.filter_sublist) h.ids
  · intro l hl
    obtain ⟨hl1, hl2⟩ := List.mem_filter.1 hl
    obtain ⟨x, hx, e⟩ := h.known l hl1
    exact ⟨x, List.mem_filter.2 ⟨hx, by rw [e]; exact hl2⟩, e⟩
  · intro x hx a ha
    obtain ⟨hx1, hx2⟩ := List.mem_filter.1 hx
    rw [hch _ _ (by simpa using hx2)]
    exact h.vals x hx1 a ha
  · intro hapi x hx
    obtain ⟨hx1, hx2⟩ := List.mem_filter.1 hx
    rw [hch _ _ (by simpa using hx2)]
    exact h.state hapi x hx1

/-! ## The operations -/

def RDB.Ok (api : Bool) (t : Int) (w : RDB) : Prop := Inv api t w.tab w.rlog

theorem tab_ids (w : RDB) : w.tab.map Prod.fst = w.res.map Res.id := by
  unfold RDB.tab; rw [List.map_map]; rfl

theorem mem_tab_id {w : RDB} {i : Nat} : (∃ x ∈ w.tab, x.1 = i) ↔ ∃ r ∈ w.res, r.id = i := by
  constructor
  · rintro ⟨x, hx, e⟩
    obtain ⟨r, hr, rfl⟩ := List.mem_map.1 hx
    exact ⟨r, hr, e⟩
  · rintro ⟨r, hr, e⟩
    exact ⟨r.vals, List.mem_map_of_mem (f := Res.vals) hr, e⟩

theorem res_unique {l : List Res} (h : (l.map Res.id).Pairwise (· < ·)) : ∀ a ∈ l, ∀ b ∈ l, a.id = b.id → a = b := by
  induction l with
  | nil => simp
  | cons x xs ih =>
    rw [List.map_cons, List.pairwise_cons] at h
    intro a ha b hb e
    rcases List.mem_cons.1 ha with ha | ha <;> rcases List.mem_cons.1 hb with hb | hb
    · rw [ha, hb]
    · have := h.1 b.id (List.mem_map_of_mem (f := Res.id) hb); rw [ha] at e; omega
    · have := h.1 a.id (List.mem_map_of_mem (f := Res.id) ha); rw [hb] at e; omega
    · exact ih h.2 a ha b hb e

theorem RDB.Ok.unique {api : Bool} {t : Int} {w : RDB} (h : w.Ok api t) : ∀ a ∈ w.res, ∀ b ∈ w.res, a.id = b.id → a = b :=
  res_unique (by rw [← tab_ids]; exact h.ids)

/-- Updates of the other columns. -/
theorem tab_upd_frame (w : RDB) (c : Res → Bool) (f : Res → Res) (hf : ∀ r, (f r).vals = r.vals) : (w.upd c f).tab = w.tab := by
  unfold RDB.tab RDB.upd
  rw [List.map_map]
  apply List.map_congr_left
  intro r _
  simp only [Function.comp]
  split
  · exact hf r
  · rfl

theorem ok_upd {api : Bool} {t : Int} {w : RDB} (h : w.Ok api t) (c : Res → Bool) (f : Res → Res) (hf : ∀ r, (f r).vals = r.vals) :
    (w.upd c f).Ok api t := by
  unfold RDB.Ok
  rw [tab_upd_frame w c f hf]
  exact h

theorem ok_setNext {api : Bool} {t : Int} {w : RDB} (h : w.Ok api t) (rid : Nat) (st : String) : (setNext w rid st).Ok api t :=
  ok_upd h _ _ (fun _ => rfl)

theorem ok_setNextFinaud {api : Bool} {t : Int} {w : RDB} (h : w.Ok api t) (rid : Nat) (fin : Bool) : (setNextFinaud w rid fin).Ok api t :=
  ok_upd h _ _ (fun _ => rfl)

theorem ok_setNodeNext {api : Bool} {t : Int} {w : RDB} (h : w.Ok api t) (host st : String) : (setNodeNext w host st).Ok api t :=
  ok_upd h _ _ (fun _ => rfl)

theorem ok_setNodeNextFinaud {api : Bool} {t : Int} {w : RDB} (h : w.Ok api t) (host : String) (fin : Bool) :
    (setNodeNextFinaud w host fin).Ok api t :=
  ok_upd h _ _ (fun _ => rfl)

theorem ok_foldl {α : Type} {api : Bool} {t : Int} (f : RDB → α → RDB) (hf : ∀ w x, w.Ok api t → (f w x).Ok api t) (l : List α) :
    ∀ {w : RDB}, w.Ok api t → (l.foldl f w).Ok api t := by
  induction l with
  | nil => exact fun h => h
  | cons x xs ih => exact fun h => ih (hf _ x h)

theorem ok_setResState {api : Bool} {t now : Int} {w : RDB} (h : w.Ok api t) (hle : t ≤ now) (hpos : 0 < now) (rid : Nat)
    (hk : ∃ r ∈ w.res, r.id = rid) (st : String) (fin : Bool) : (setResState w now rid st fin).Ok api now := by
  refine Inv.write (ids := [rid]) (a := "state") h hle hpos (by simp) ?_ ?_ ?_
  · intro i hi
    rw [List.mem_singleton.1 hi]
    exact mem_tab_id.2 hk
  · intro l _
    simp
  · unfold RDB.tab setResState RDB.upd
    rw [List.map_map, List.map_map]
    apply List.map_congr_left
    intro r _
    simp only [Function.comp, List.mem_singleton, Res.vals]
    by_cases hr : r.id = rid
    · rw [if_pos (by simpa using hr), if_pos hr]
      refine Prod.ext rfl ?_
      funext b
      show (if b = "state" then some st else r.prop b) = if b = "state" then some st else if b = "state" then some r.state else r.prop b
      split <;> rfl
    · rw [if_neg (by simpa using hr), if_neg hr]

theorem ok_setNodeState {api : Bool} {t now : Int} {w w' : RDB} (h : w.Ok api t) (hle : t ≤ now) (hpos : 0 < now) {host st : String}
    {fin : Bool} (hs : setNodeState true w now host st fin = some w') : w'.Ok api now := by
  unfold setNodeState at hs
  split at hs
  · rename_i hst
    rw [hst, if_neg (by decide)] at hs
    exact absurd hs (by simp)
  · split at hs
    · rw [← Option.some.inj hs]
      have hu := h.unique
      have hmem : ∀ r ∈ w.res, (r.id ∈ (w.res.filter (fun r => r.host == host)).map Res.id ↔ r.host = host) := by
        intro r hr
        constructor
        · intro hi
          obtain ⟨x, hx, e⟩ := List.mem_map.1 hi
          obtain ⟨hx1, hx2⟩ := List.mem_filter.1 hx
          rw [← hu x hx1 r hr e]
          simpa using hx2
        · intro hi
          exact List.mem_map.2 ⟨r, List.mem_filter.2 ⟨hr, by simpa using hi⟩, rfl⟩
      have := Inv.write (ids := (w.res.filter (fun r => r.host == host)).map Res.id) (a := "state") (v := st) h hle hpos
        (c := fun l => (l.attr == if true then "state" else st) && w.res.any (fun r => r.host == host && r.id == l.rid))
        (tab' := RDB.tab { w.upd (fun r => r.host == host) (fun r => { r with state := st, finaud := fin }) with rlog := nodeLog true w now host st })
        ?_ ?_ ?_ ?_
      · unfold RDB.Ok nodeLog
        rw [List.map_map] at this
        exact this
      · have := h.ids
        rw [tab_ids] at this
        have hsub := List.Pairwise.sublist (List.Sublist.map Res.id (List.filter_sublist (p := fun r : Res => r.host == host))) this
        exact List.Pairwise.imp (fun h => Nat.ne_of_lt h) hsub
      · intro i hi
        obtain ⟨x, hx, e⟩ := List.mem_map.1 hi
        exact mem_tab_id.2 ⟨x, (List.mem_filter.1 hx).1, e⟩
      · intro l _
        simp only [if_true, Bool.and_eq_true, beq_iff_eq, List.any_eq_true, List.mem_map, List.mem_filter]
        constructor
        · rintro ⟨h1, r, hr, h2, h3⟩
          exact ⟨h1, r, ⟨hr, h2⟩, h3⟩
        · rintro ⟨h1, r, ⟨hr, h2⟩, h3⟩
          exact ⟨h1, r, hr, h2, h3⟩
      · unfold RDB.tab RDB.upd
        rw [List.map_map, List.map_map]
        apply List.map_congr_left
        intro r hr
        simp only [Function.comp]
        by_cases hh : r.host = host
        · rw [if_pos (by simpa using hh), if_pos (show r.vals.1 ∈ _ from (hmem r hr).2 hh)]
          refine Prod.ext rfl ?_
          funext b
          show (if b = "state" then some st else r.prop b) = if b = "state" then some st else if b = "state" then some r.state else r.prop b
          split <;> rfl
        · rw [if_neg (by simpa using hh), if_neg (fun hi : r.vals.1 ∈ _ => hh ((hmem r hr).1 hi))]
    · exact absurd hs (by simp)

theorem ok_setProp {api : Bool} {t now : Int} {w : RDB} (h : w.Ok api t) (hle : t ≤ now) (hpos : 0 < now) (sel : Res → Bool)
    (p v : String) : (setProp w now sel p v).Ok api now := by
  unfold setProp
  split
  · exact h.mono hle
  · rename_i hp
    have hps : p ≠ "state" := by
      rintro rfl
      exact hp (by decide)
    refine Inv.write (ids := propTargets w sel p v) (a := p) h hle hpos ?_ ?_ ?_ ?_
    · have := h.ids
      rw [tab_ids] at this
      have hsub := List.Pairwise.sublist (List.Sublist.map Res.id (List.filter_sublist (p := fun r : Res => sel r && r.prop p != some v))) this
      exact List.Pairwise.imp (fun h => Nat.ne_of_lt h) hsub
    · intro i hi
      obtain ⟨x, hx, e⟩ := List.mem_map.1 hi
      exact mem_tab_id.2 ⟨x, (List.mem_filter.1 hx).1, e⟩
    · intro l _
      simp
    · unfold RDB.tab RDB.upd
      dsimp only
      rw [List.map_map, List.map_map]
      apply List.map_congr_left
      intro r _
      simp only [Function.comp]
      by_cases hr : r.id ∈ propTargets w sel p v
      · rw [if_pos (by simpa using hr), if_pos (show r.vals.1 ∈ _ from hr)]
        refine Prod.ext rfl ?_
        funext b
        show (if b = "state" then some r.state else if b = p then some v else r.prop b) =
          if b = p then some v else if b = "state" then some r.state else r.prop b
        by_cases hb : b = "state"
        · rw [if_pos hb, if_neg (by rw [hb]; exact Ne.symm hps), if_pos hb]
        · rw [if_neg hb, if_neg hb]
      · rw [if_neg (by simpa using hr), if_neg (fun hi : r.vals.1 ∈ _ => hr hi)]

theorem ok_changeOne {api : Bool} {now : Int} {w : RDB} (h : w.Ok api now) (hpos : 0 < now) (rid : Nat) (next : String) :
    (changeOne now w rid next).Ok api now := by
  unfold changeOne
  cases hf : w.res.find? (fun r => r.id == rid) with
  | none => exact h
  | some r =>
    dsimp only
    have hk : ∃ r ∈ w.res, r.id = rid := ⟨r, List.mem_of_find?_eq_some hf, by simpa using List.find?_some hf⟩
    have h1 := ok_setNext (ok_setResState h (Int.le_refl _) hpos rid hk next r.nextFinaud) rid "UnChanged"
    split
    · split
      · exact h1
      · exact h1
    · exact ok_setNext h rid "UnChanged"

theorem ok_suspectAll {api : Bool} {now : Int} (hpos : 0 < now) (hs : List (String × Bool)) : ∀ {w w' : RDB}, w.Ok api now →
    suspectAll true now hs w = some w' → w'.Ok api now := by
  induction hs with
  | nil =>
    intro w w' h e
    rw [← Option.some.inj e]; exact h
  | cons x xs ih =>
    intro w w' h e
    obtain ⟨host, fin⟩ := x
    unfold suspectAll at e
    cases hn : setNodeState true w now host "Suspected" fin with
    | none => rw [hn] at e; exact absurd e (by simp)
    | some w1 =>
      rw [hn] at e
      exact ih (ok_setNodeState h (Int.le_refl _) hpos hn) e

theorem ok_finaudNode {api : Bool} {t : Int} {w : RDB} (h : w.Ok api t) (bad : String → Bool) (n : Res) : (finaudNode bad w n).Ok api t := by
  unfold finaudNode
  split
  · exact ok_setNodeNextFinaud (ok_setNodeNext h n.host "Suspected") n.host true
  · split
    · exact ok_setNodeNextFinaud (ok_setNodeNext h n.host "Alive") n.host true
    · exact h

theorem RStep.ok {api : Bool} {t now : Int} {w w' : RDB} (hs : RStep api now w w') (h : w.Ok api t) (hle : t ≤ now) (hpos : 0 < now) :
    w'.Ok api now := by
  have h' : w.Ok api now := h.mono hle
  cases hs with
  | add rid host state hid hlog =>
    have e : RDB.tab (addRes w now rid host state) = w.tab ++ [({ id := rid, host := host, state := state } : Res).vals] := by
      unfold RDB.tab addRes
      rw [List.map_append]; rfl
    unfold RDB.Ok
    rw [e]
    refine h'.add ?_ ?_ ?_ ?_
    · intro y hy
      obtain ⟨r, hr, rfl⟩ := List.mem_map.1 hy
      exact hid r hr
    · intro l hl
      rw [List.mem_singleton.1 hl]; rfl
    · intro a _
      by_cases ha : a = "state"
      · right
        refine ⟨state, if_pos ha, ?_⟩
        rw [ha, show chan [(⟨rid, "state", state, now, 0⟩ : RLog)] (Res.vals { id := rid, host := host, state := state }).1 "state" =
          [⟨rid, "state", state, now, 0⟩] from chan_new_same (ids := [rid]) (by simp) (List.mem_singleton.2 rfl) "state" state now]
        exact ⟨rfl, rfl, hpos, by show now ≤ now; omega⟩
      · left
        exact chan_new_other (ids := [rid]) (Or.inr ha) state now
    · intro _
      rw [show chan [(⟨rid, "state", state, now, 0⟩ : RLog)] (Res.vals { id := rid, host := host, state := state }).1 "state" =
          [⟨rid, "state", state, now, 0⟩] from chan_new_same (ids := [rid]) (by simp) (List.mem_singleton.2 rfl) "state" state now]
      simp
  | create r hapi hid hlog =>
    have e : RDB.tab (apiCreate w r) = w.tab ++ [r.vals] := by
      unfold RDB.tab apiCreate
      rw [List.map_append]; rfl
    have := Inv.add (new := []) h' (x := r.vals) ?_ (by simp) (fun a _ => Or.inl rfl) (fun h => by rw [hapi] at h; exact absurd h (by simp))
    · unfold RDB.Ok
      rw [e]
      rw [List.append_nil] at this
      exact this
    · intro y hy
      obtain ⟨x, hx, rfl⟩ := List.mem_map.1 hy
      exact hid x hx
  | set rid st fin hk => exact ok_setResState h hle hpos rid hk st fin
  | next rid st => exact ok_setNext h' rid st
  | nodeNext host st => exact ok_setNodeNext h' host st
  | property sel p v _ => exact ok_setProp h hle hpos sel p v
  | maintenance rid on hk =>
    unfold logMaintenance
    cases on with
    | true =>
      rw [if_pos rfl]
      refine Inv.maint h' ?_ ?_
      · intro l hl
        rcases List.mem_append.1 hl with hl | hl
        · exact h'.known l hl
        · rw [List.mem_singleton.1 hl]
          exact mem_tab_id.2 hk
      · intro i a ha
        rw [chan_append, show chan [(⟨rid, "maintenance", "on", now, 0⟩ : RLog)] i a = [] from
          (by unfold chan; rw [List.filter_cons_of_neg (by simp [Ne.symm ha])]; rfl), List.append_nil]
    | false =>
      rw [if_neg (by simp)]
      refine Inv.maint h' ?_ ?_
      · intro l hl
        unfold closeLogs at hl
        obtain ⟨r, hr, rfl⟩ := List.mem_map.1 hl
        obtain ⟨x, hx, e⟩ := h'.known r hr
        refine ⟨x, hx, ?_⟩
        rw [e]
        split <;> rfl
      · intro i a ha
        rw [closeLogs_chan, closeLogs_none]
        intro r hr
        rw [(mem_chan.1 hr).2.2]
        simp [ha]
  | sarko timeout =>
    unfold sarkoDead
    split
    · exact ok_foldl _ (fun w x hw => ok_setNextFinaud (ok_setNext hw x "Dead") x true) _ h'
    · exact h'
  | finaud all bad => exact ok_foldl _ (fun w x hw => ok_finaudNode hw bad x) _ h'
  | events env hnow _ hr =>
    unfold ncsRun at hr
    cases he : Jobs.ncsEvents env w.db with
    | none => rw [he] at hr; exact absurd hr (by simp)
    | some v =>
      obtain ⟨db', hs⟩ := v
      rw [he] at hr
      dsimp only at hr
      cases hn : suspectAll true env.now hs { w with db := db' } with
      | none => rw [hn] at hr; exact absurd hr (by simp)
      | some w1 =>
        rw [hn] at hr
        dsimp only at hr
        rw [← Option.some.inj hr, hnow]
        rw [hnow] at hn
        have h1 : w1.Ok api now := ok_suspectAll hpos hs (w := { w with db := db' }) h' hn
        exact ok_foldl _ (fun w x hw => ok_changeOne hw hpos x.1 x.2) _ h1
  | remove rid user c _ hr =>
    unfold removeRes at hr
    split at hr
    · rw [← (Prod.mk.inj (Option.some.inj hr)).2]; exact h'
    · split at hr
      · exact absurd hr (by simp)
      · split at hr
        · rw [← (Prod.mk.inj (Option.some.inj hr)).2]
          have := Inv.remove h' rid
          unfold RDB.Ok RDB.tab removeRows
          unfold RDB.tab at this
          rw [List.filter_map] at this
          exact this
        · rw [← (Prod.mk.inj (Option.some.inj hr)).2]; exact h'
  | jobs db assigned molds => exact h'

theorem RHistory.ok {api : Bool} {t : Int} {w : RDB} (h : RHistory api t w) : w.Ok api t ∧ 0 < t := by
  induction h with
  | start t ht db assigned molds =>
    exact ⟨⟨List.Pairwise.nil, by simp, by intro x hx; simp [RDB.tab] at hx, by intro _ x hx; simp [RDB.tab] at hx⟩, ht⟩
  | step t now w w' _ hle hs ih => exact ⟨hs.ok ih.1 hle (by omega), by omega⟩

end Oar.Res
