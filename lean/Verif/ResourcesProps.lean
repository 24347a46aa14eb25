import Verif.ResourcesLemmas
import Verif.JobsFragProps

/-!
# C48, C51, C52, C53, C55, C56: the states of the resources
-/

namespace Oar.Res

open Oar.Jobs (DB JobRow FragRow fragJob)

/-! ## C52: the log of the resources -/

/-- For every history (PostgreSQL, resources created by the command line), the intervals of the state of each resource are
consecutive and chronological, only the last one is open, and it carries the current state. -/
theorem resource_log_timeline {t : Int} {w : RDB} (h : RHistory false t w) : ∀ r ∈ w.res, Consecutive r.state t (w.logOf r.id "state") := by
  intro r hr
  have hok := h.ok.1
  have hx : r.vals ∈ w.tab := List.mem_map_of_mem (f := Res.vals) hr
  rcases hok.vals r.vals hx "state" (by decide) with e | ⟨v, hv, hc⟩
  · exact absurd e (hok.state rfl r.vals hx)
  · have : some r.state = some v := hv
    rw [Option.some.inj this]
    exact hc

/-- With resources created through the REST API too: the log of the state is right, or empty. -/
theorem resource_log_timeline_partial {t : Int} {w : RDB} (h : RHistory true t w) : ∀ r ∈ w.res,
    w.logOf r.id "state" = [] ∨ Consecutive r.state t (w.logOf r.id "state") := by
  intro r hr
  have hok := h.ok.1
  rcases hok.vals r.vals (List.mem_map_of_mem (f := Res.vals) hr) "state" (by decide) with e | ⟨v, hv, hc⟩
  · exact Or.inl e
  · have : some r.state = some v := hv
    right
    rw [Option.some.inj this]
    exact hc

/-- For every history, the intervals of each property that has ever been written (not the maintenance) are consecutive and
chronological, only the last one is open, and it carries the current value of the property. -/
theorem property_log_timeline {api : Bool} {t : Int} {w : RDB} (h : RHistory api t w) : ∀ r ∈ w.res, ∀ p, p ≠ "state" → p ≠ "maintenance" →
    w.logOf r.id p = [] ∨ ∃ v, r.prop p = some v ∧ Consecutive v t (w.logOf r.id p) := by
  intro r hr p hp hm
  rcases h.ok.1.vals r.vals (List.mem_map_of_mem (f := Res.vals) hr) p hm with e | ⟨v, hv, hc⟩
  · exact Or.inl e
  · right
    have hv' : (if p = "state" then some r.state else r.prop p) = some v := hv
    rw [if_neg hp] at hv'
    exact ⟨v, hv', hc⟩

/-- Writing a property changes exactly the selected resources, and only that property; the columns of the system are never
written. -/
theorem setProp_exact {api : Bool} {t : Int} {w : RDB} (h : RHistory api t w) (now : Int) (sel : Res → Bool) (p v : String) :
    (p ∈ systemProps → setProp w now sel p v = w) ∧
    (p ∉ systemProps → (setProp w now sel p v).res = w.res.map (fun r =>
      if sel r = true ∧ r.prop p ≠ some v then { r with prop := fun q => if q = p then some v else r.prop q } else r)) := by
  unfold setProp
  constructor
  · intro hp; rw [if_pos hp]
  · intro hp
    rw [if_neg hp]
    show w.res.map _ = _
    apply List.map_congr_left
    intro r hr
    have hiff : r.id ∈ propTargets w sel p v ↔ sel r = true ∧ r.prop p ≠ some v := by
      unfold propTargets
      constructor
      · intro hm
        obtain ⟨x, hx, e⟩ := List.mem_map.1 hm
        obtain ⟨hx1, hx2⟩ := List.mem_filter.1 hx
        have := (h.ok.1.unique) x hx1 r hr e
        rw [this] at hx2
        simpa using hx2
      · intro hc
        exact List.mem_map.2 ⟨r, List.mem_filter.2 ⟨hr, by simpa using hc⟩, rfl⟩
    by_cases hc : sel r = true ∧ r.prop p ≠ some v
    · rw [if_pos hc, if_pos (by simpa using hiff.2 hc)]
    · rw [if_neg hc, if_neg (by simpa using fun h => hc (hiff.1 h))]

/-- Each interval belongs to an existing resource, and resource ids are unique. -/
theorem resource_log_known {api : Bool} {t : Int} {w : RDB} (h : RHistory api t w) : (∀ l ∈ w.rlog, ∃ r ∈ w.res, r.id = l.rid) ∧
    ∀ a ∈ w.res, ∀ b ∈ w.res, a.id = b.id → a = b :=
  ⟨fun l hl => mem_tab_id.1 (h.ok.1.known l hl), h.ok.1.unique⟩

def exNoJobs : DB := ⟨[], [], [], [], []⟩

/-- A history: a resource is added at 10, suspected at 12 by Finaud and the state applied at 15. -/
def exRes : RDB :=
  changeAll 15 { finaudRun (addRes ⟨[], [], exNoJobs, [], []⟩ 10 1 "node1" "Alive") false (fun _ => true) with
    db := exNoJobs, assigned := [], molds := [] }

theorem exRes_history : RHistory false 15 exRes := by
  have h0 : RHistory false 10 ⟨[], [], exNoJobs, [], []⟩ := .start 10 (by decide) _ _ _
  have h1 := RHistory.step 10 10 _ _ h0 (by decide) (.add 1 "node1" "Alive" (by simp) (by simp))
  have h2 := RHistory.step 10 12 _ _ h1 (by decide) (.finaud false (fun _ => true))
  have h3 := RHistory.step 12 15 _ _ h2 (by decide) (.jobs exNoJobs [] [])
  exact RHistory.step 15 15 _ _ h3 (by decide) (.events ⟨15, fun _ => [], false, .done, false⟩ rfl _ (by rfl))

example : exRes.rlog = [⟨1, "state", "Alive", 10, 15⟩, ⟨1, "state", "Suspected", 15, 0⟩] := by rfl

/-- A resource created through the REST API has no interval at all. -/
theorem api_created_violated : ∃ w : RDB, RHistory true 10 w ∧ ∃ r ∈ w.res, ¬ Consecutive r.state 10 (w.logOf r.id "state") :=
  ⟨apiCreate ⟨[], [], exNoJobs, [], []⟩ { id := 1, host := "node1", state := "Alive" },
    .step 10 10 _ _ (.start 10 (by decide) _ _ _) (by decide) (.create _ rfl (by simp) (by simp)),
    { id := 1, host := "node1", state := "Alive" }, by simp [apiCreate], by intro h; exact h⟩

/-- With SQLite, suspecting a node leaves its previous interval open. -/
theorem sqlite_log_violated : ∃ w', setNodeState false (addRes ⟨[], [], exNoJobs, [], []⟩ 10 1 "node1" "Alive") 12 "node1" "Suspected" false =
      some w' ∧ w'.logOf 1 "state" = [⟨1, "state", "Alive", 10, 0⟩, ⟨1, "state", "Suspected", 12, 0⟩] := ⟨_, rfl, by decide⟩

/-- Two maintenance orders in a row leave two open intervals. -/
theorem maintenance_log_violated : ∃ w : RDB, RHistory false 12 w ∧
    w.logOf 1 "maintenance" = [⟨1, "maintenance", "on", 11, 0⟩, ⟨1, "maintenance", "on", 12, 0⟩] := by
  have h0 : RHistory false 10 ⟨[], [], exNoJobs, [], []⟩ := .start 10 (by decide) _ _ _
  have h1 := RHistory.step 10 10 _ _ h0 (by decide) (.add 1 "node1" "Alive" (by simp) (by simp))
  have h2 := RHistory.step 10 11 _ _ h1 (by decide) (.maintenance 1 true ⟨_, List.mem_append_right _ (List.mem_singleton.2 rfl), rfl⟩)
  have h3 := RHistory.step 11 12 _ _ h2 (by decide) (.maintenance 1 true ⟨_, List.mem_append_right _ (List.mem_singleton.2 rfl), rfl⟩)
  exact ⟨_, h3, by decide⟩

/-! ## C48: suspecting a node -/

/-- The guarded branch of `set_node_state` is never taken with success: the state it tests has no number. -/
theorem suspect_guard_raises (pg : Bool) (w : RDB) (now : Int) (host : String) (fin : Bool) :
    setNodeState pg w now host "Suspect" fin = none := by
  unfold setNodeState
  rw [if_pos rfl, if_neg (by decide)]

/-- What `set_node_state` does: all the resources of the node take the state, whatever the one they have, and the others
nothing. -/
theorem setNodeState_exact_partial {pg : Bool} {w w' : RDB} {now : Int} {host st : String} {fin : Bool}
    (h : setNodeState pg w now host st fin = some w') :
    w'.res = w.res.map (fun r => if r.host = host then { r with state := st, finaud := fin } else r) ∧
    (st = "Alive" ∨ st = "Absent" ∨ st = "Suspected" ∨ st = "Dead") ∧ w'.db = w.db := by
  unfold setNodeState at h
  split at h
  · rename_i hst
    rw [hst, if_neg (by decide)] at h
    exact absurd h (by simp)
  · split at h
    · rename_i hst
      rw [← Option.some.inj h]
      refine ⟨?_, by simpa [stateNames] using hst, rfl⟩
      show w.res.map _ = _
      apply List.map_congr_left
      intro r _
      by_cases hr : r.host = host
      · rw [if_pos hr, if_pos (by simpa using hr)]
      · rw [if_neg hr, if_neg (by simpa using hr)]
    · exact absurd h (by simp)

/-- The treatment of an error event turns a Dead node into Suspected. -/
theorem suspect_dead_violated : ∃ w w' : RDB, RHistory false 10 w ∧
    ncsRun true ⟨31, fun _ => [], false, .done, false⟩ w = some w' ∧ w.res.map Res.state = ["Dead"] ∧ w'.res.map Res.state = ["Suspected"] := by
  have h0 : RHistory false 10 ⟨[], [], exNoJobs, [], []⟩ := .start 10 (by decide) _ _ _
  have h1 := RHistory.step 10 10 _ _ h0 (by decide) (.add 1 "node1" "Dead" (by simp) (by simp))
  have h2 := RHistory.step 10 10 _ _ h1 (by decide) (.jobs
    ⟨[⟨1, "bob", "Finishing", "PASSIVE", "None", 5, 9, false, [], none, 7, 200, 0, 0⟩], [], [],
      [⟨"CPUSET_CLEAN_ERROR", 1, true, ["node1"]⟩], []⟩ [⟨7, 1, true⟩] [(7, 1)])
  exact ⟨_, _, h2, rfl, by decide, by decide⟩

/-! ## C51: the resources declared Dead -/

theorem upd_res (w : RDB) (c : Res → Bool) (f : Res → Res) : (w.upd c f).res = w.res.map (fun r => if c r then f r else r) := rfl

/-- Request the state Dead. -/
def Res.toDead (r : Res) : Res := { r with next := "Dead", nextFinaud := true }

theorem sarkoDead_fold (l : List Nat) : ∀ w : RDB,
    (l.foldl (fun w rid => setNextFinaud (setNext w rid "Dead") rid true) w).res =
      w.res.map (fun r => if r.id ∈ l then r.toDead else r) := by
  induction l with
  | nil => intro w; simp
  | cons x xs ih =>
    intro w
    rw [List.foldl_cons, ih]
    unfold setNextFinaud setNext
    rw [upd_res, upd_res, List.map_map, List.map_map]
    apply List.map_congr_left
    intro r _
    simp only [Function.comp]
    have inner : (if (if (r.id == x) = true then { r with next := "Dead", nextFinaud := false } else r).id == x then
        { (if (r.id == x) = true then { r with next := "Dead", nextFinaud := false } else r) with nextFinaud := true }
        else (if (r.id == x) = true then { r with next := "Dead", nextFinaud := false } else r)) =
        if r.id = x then r.toDead else r := by
      by_cases hx : r.id = x
      · have hb : (r.id == x) = true := by simpa using hx
        simp [hx, Res.toDead]
      · simp [hx]
    rw [inner]
    by_cases hx : r.id = x
    · rw [if_pos hx, if_pos (show r.id ∈ x :: xs by simp [hx])]
      split <;> rfl
    · rw [if_neg hx]
      by_cases hxs : r.id ∈ xs
      · rw [if_pos hxs, if_pos (by simp [hxs])]
      · rw [if_neg hxs, if_neg (by simp [hxs, hx])]

theorem Consecutive.open_mem {cur : String} {t : Int} : ∀ {l : List RLog}, Consecutive cur t l →
    ∃ r, l.filter (fun r => r.stop == 0) = [r] ∧ l.getLast? = some r ∧ r.value = cur
  | [], h => h.elim
  | [r], ⟨h1, h2, _, _⟩ => ⟨r, by simp [h1], rfl, h2⟩
  | r :: r' :: rest, ⟨_, h2, h3, h5⟩ => by
    obtain ⟨x, hx, hl, hs⟩ := Consecutive.open_mem h5
    refine ⟨x, ?_, ?_, hs⟩
    · rw [List.filter_cons_of_neg (by simp; omega)]
      exact hx
    · rw [List.getLast?_cons_cons]; exact hl

/-- In every history, the resources asked to become Dead by the watcher are exactly those whose current state, whichever it is,
began more than `timeout` seconds ago. -/
theorem sarkoDead_exact_partial {t : Int} {w : RDB} (h : RHistory false t w) (now timeout : Int) :
    (timeout ≤ 0 → sarkoDead w now timeout = w) ∧
    (0 < timeout → (sarkoDead w now timeout).res = w.res.map (fun r =>
      if (w.logOf r.id "state").getLast?.any (fun l => decide (l.start + timeout < now)) then r.toDead else r)) := by
  unfold sarkoDead
  constructor
  · intro h0
    rw [if_neg (by omega)]
  · intro h0
    rw [if_pos h0, sarkoDead_fold]
    apply List.map_congr_left
    intro r hr
    obtain ⟨l, hl, hlast, _⟩ := (resource_log_timeline h r hr).open_mem
    have hiff : r.id ∈ longStates w now timeout ↔ l.start + timeout < now := by
      have hlm : l ∈ (w.logOf r.id "state").filter (fun r => r.stop == 0) := by rw [hl]; simp
      unfold longStates
      constructor
      · intro hm
        obtain ⟨x, hx, e⟩ := List.mem_map.1 hm
        obtain ⟨hx1, hx2⟩ := List.mem_filter.1 hx
        simp only [Bool.and_eq_true, beq_iff_eq, decide_eq_true_eq] at hx2
        have : x ∈ (w.logOf r.id "state").filter (fun r => r.stop == 0) := by
          refine List.mem_filter.2 ⟨List.mem_filter.2 ⟨hx1, by simp [e, hx2.1.1]⟩, by simp [hx2.1.2]⟩
        rw [hl] at this
        rw [← List.mem_singleton.1 this]
        exact hx2.2
      · intro hm
        obtain ⟨h1, h2⟩ := List.mem_filter.1 hlm
        obtain ⟨h3, h4⟩ := List.mem_filter.1 h1
        simp only [Bool.and_eq_true, beq_iff_eq] at h4 h2
        exact List.mem_map.2 ⟨l, List.mem_filter.2 ⟨h3, by simp [h4.2, h2, hm]⟩, h4.1⟩
    rw [hlast]
    show (if r.id ∈ longStates w now timeout then r.toDead else r) = if decide (l.start + timeout < now) = true then r.toDead else r
    by_cases hc : l.start + timeout < now
    · rw [if_pos (hiff.2 hc), if_pos (by simpa using hc)]
    · rw [if_neg (fun x => hc (hiff.1 x)), if_neg (by simpa using hc)]

/-- An Alive resource is declared Dead by the watcher. -/
theorem alive_declared_dead_violated : ∃ w : RDB, RHistory false 10 w ∧ w.res.map Res.state = ["Alive"] ∧
    (sarkoDead w 400 300).res.map Res.next = ["Dead"] ∧
    (changeAll 401 (sarkoDead w 400 300)).res.map Res.state = ["Dead"] := by
  have h0 : RHistory false 10 ⟨[], [], exNoJobs, [], []⟩ := .start 10 (by decide) _ _ _
  exact ⟨_, RHistory.step 10 10 _ _ h0 (by decide) (.add 1 "node1" "Alive" (by simp) (by simp)), by decide, by decide, by decide⟩

/-! ## C53: the requested states and the jobs -/

/-- What the treatment of a requested state does to its resource. -/
def settle (next : String) (r : Res) : Res :=
  if r.state ≠ next then { r with state := next, finaud := r.nextFinaud, next := "UnChanged", nextFinaud := false }
  else { r with next := "UnChanged", nextFinaud := false }

def g (p : Nat × String) (r : Res) : Res := if r.id = p.1 then settle p.2 r else r

theorem g_id (p : Nat × String) (r : Res) : (g p r).id = r.id := by
  unfold g settle
  split
  · split <;> rfl
  · rfl

theorem changeOne_res {w : RDB} (hu : ∀ a ∈ w.res, ∀ b ∈ w.res, a.id = b.id → a = b) (now : Int) (rid : Nat) (next : String) :
    (changeOne now w rid next).res = w.res.map (g (rid, next)) := by
  unfold changeOne
  cases hf : w.res.find? (fun r => r.id == rid) with
  | none =>
    dsimp only
    conv => lhs; rw [← List.map_id w.res]
    apply List.map_congr_left
    intro r hr
    have := List.find?_eq_none.1 hf r hr
    unfold g
    rw [if_neg (by simpa using this)]
    rfl
  | some r =>
    have hm := List.mem_of_find?_eq_some hf
    have hid : r.id = rid := by simpa using List.find?_some hf
    dsimp only
    have key1 : (setNext (setResState w now rid next r.nextFinaud) rid "UnChanged").res = w.res.map (fun x => if x.id = rid then
        { x with state := next, finaud := r.nextFinaud, next := "UnChanged", nextFinaud := false } else x) := by
      unfold setNext setResState
      rw [upd_res]
      show (w.res.map _).map _ = _
      rw [List.map_map]
      apply List.map_congr_left
      intro x _
      simp only [Function.comp]
      by_cases hx : x.id = rid
      · simp [hx]
      · simp [hx]
    have key2 : (setNext w rid "UnChanged").res = w.res.map (fun x => if x.id = rid then
        { x with next := "UnChanged", nextFinaud := false } else x) := by
      unfold setNext
      rw [upd_res]
      apply List.map_congr_left
      intro x _
      by_cases hx : x.id = rid
      · rw [if_pos (by simpa using hx), if_pos hx]
      · rw [if_neg (by simpa using hx), if_neg hx]
    by_cases hst : r.state ≠ next
    · rw [if_pos hst]
      have : ∀ d : DB, ({ setNext (setResState w now rid next r.nextFinaud) rid "UnChanged" with db := d } : RDB).res =
          w.res.map (g (rid, next)) := by
        intro d
        show (setNext (setResState w now rid next r.nextFinaud) rid "UnChanged").res = _
        rw [key1]
        apply List.map_congr_left
        intro x hx
        unfold g settle
        dsimp only
        by_cases hxr : x.id = rid
        · rw [if_pos hxr, if_pos hxr, hu x hx r hm (by omega), if_pos hst]
        · rw [if_neg hxr, if_neg hxr]
      split
      · exact this _
      · exact this _
    · rw [if_neg hst, key2]
      apply List.map_congr_left
      intro x hx
      unfold g settle
      dsimp only
      by_cases hxr : x.id = rid
      · rw [if_pos hxr, if_pos hxr, hu x hx r hm (by omega), if_neg hst]
      · rw [if_neg hxr, if_neg hxr]

theorem unique_map {l : List Res} (p : Nat × String) (hu : ∀ a ∈ l, ∀ b ∈ l, a.id = b.id → a = b) :
    ∀ a ∈ l.map (g p), ∀ b ∈ l.map (g p), a.id = b.id → a = b := by
  intro a ha b hb e
  obtain ⟨x, hx, rfl⟩ := List.mem_map.1 ha
  obtain ⟨y, hy, rfl⟩ := List.mem_map.1 hb
  rw [g_id, g_id] at e
  rw [hu x hx y hy e]

theorem changeFold_res (now : Int) (ps : List (Nat × String)) : ∀ {w : RDB}, (∀ a ∈ w.res, ∀ b ∈ w.res, a.id = b.id → a = b) →
    (ps.foldl (fun w p => changeOne now w p.1 p.2) w).res = w.res.map (fun r => ps.foldl (fun r p => g p r) r) := by
  induction ps with
  | nil => intro w _; simp
  | cons p ps ih =>
    intro w hu
    have e := changeOne_res hu now p.1 p.2
    rw [List.foldl_cons, ih (by rw [e]; exact unique_map p hu), e, List.map_map]
    rfl

theorem g_other {ps : List (Nat × String)} {r : Res} (h : ∀ p ∈ ps, p.1 ≠ r.id) : ps.foldl (fun r p => g p r) r = r := by
  induction ps with
  | nil => rfl
  | cons p ps ih =>
    rw [List.foldl_cons]
    have : g p r = r := by
      unfold g
      rw [if_neg (Ne.symm (h p (by simp)))]
    rw [this]
    exact ih (fun q hq => h q (by simp [hq]))

theorem g_same {ps : List (Nat × String)} (hd : (ps.map Prod.fst).Nodup) {r : Res} {n : String} (h : (r.id, n) ∈ ps) :
    ps.foldl (fun r p => g p r) r = settle n r := by
  induction ps with
  | nil => simp at h
  | cons p ps ih =>
    rw [List.map_cons, List.nodup_cons] at hd
    rw [List.foldl_cons]
    rcases List.mem_cons.1 h with e | e
    · rw [← e]
      have h1 : g (r.id, n) r = settle n r := if_pos rfl
      rw [h1, g_other]
      intro q hq
      have : (settle n r).id = r.id := by unfold settle; split <;> rfl
      rw [this]
      intro e'
      apply hd.1
      rw [← e]
      exact List.mem_map.2 ⟨q, hq, e'⟩
    · have : g p r = r := by
        unfold g
        rw [if_neg]
        intro e'
        exact hd.1 (List.mem_map.2 ⟨(r.id, n), e, e'⟩)
      rw [this]
      exact ih hd.2 e

theorem changing_nodup {w : RDB} (hs : (w.res.map Res.id).Pairwise (· < ·)) : ((changing w).map Prod.fst).Nodup := by
  unfold changing
  rw [List.map_map]
  have := List.Pairwise.sublist (List.Sublist.map Res.id (List.filter_sublist (p := fun r : Res => r.next != "UnChanged"))) hs
  exact List.Pairwise.imp (fun h => Nat.ne_of_lt h) this

/-- In every history, the treatment of the requested states gives to each resource the state asked for, erases the request and
leaves the other resources as they are. -/
theorem changeAll_states {api : Bool} {t : Int} {w : RDB} (h : RHistory api t w) (now : Int) :
    (changeAll now w).res = w.res.map (fun r => if r.next = "UnChanged" then r
      else { r with state := r.next, finaud := if r.state = r.next then r.finaud else r.nextFinaud, next := "UnChanged", nextFinaud := false }) := by
  have hok := h.ok.1
  unfold changeAll
  rw [changeFold_res now _ hok.unique]
  apply List.map_congr_left
  intro r hr
  by_cases hn : r.next = "UnChanged"
  · rw [if_pos hn, g_other]
    intro p hp e
    unfold changing at hp
    obtain ⟨x, hx, rfl⟩ := List.mem_map.1 hp
    obtain ⟨hx1, hx2⟩ := List.mem_filter.1 hx
    rw [hok.unique x hx1 r hr e, hn] at hx2
    exact absurd hx2 (by decide)
  · rw [if_neg hn, g_same (changing_nodup (by rw [← tab_ids]; exact hok.ids)) (n := r.next)
      (List.mem_map.2 ⟨r, List.mem_filter.2 ⟨hr, by simpa using hn⟩, rfl⟩)]
    unfold settle
    by_cases hs : r.state = r.next
    · rw [if_neg (by simpa using hs), if_pos hs]
      rw [← hs]
    · rw [if_pos hs, if_neg hs]

/-- A deletion is asked for job `i`. -/
def Fragged (d : DB) (i : Nat) : Prop := ∃ f ∈ d.frags, f.jid = i

theorem fragged_fragJob (d : DB) (now : Int) (jid i : Nat) : Fragged (fragJob d now jid "oar").2 i ↔
    Fragged d i ∨ (i = jid ∧ ∃ j ∈ d.jobs, j.id = i) := by
  unfold fragJob Fragged
  cases hj : d.job? jid with
  | none =>
    constructor
    · exact Or.inl
    · rintro (h | ⟨rfl, j, hj1, hj2⟩)
      · exact h
      · exact absurd hj2 (Jobs.job?_none hj j hj1)
  | some j =>
    dsimp only
    obtain ⟨hj1, hj2⟩ := Jobs.job?_some hj
    rw [if_pos (Or.inr (Or.inl rfl))]
    by_cases hf : d.frags.any (fun f => f.jid == jid) = true
    · rw [if_pos hf]
      constructor
      · exact Or.inl
      · rintro (h | ⟨rfl, _⟩)
        · exact h
        · obtain ⟨f, hf1, hf2⟩ := List.any_eq_true.1 hf
          exact ⟨f, hf1, by simpa using hf2⟩
    · rw [if_neg hf]
      constructor
      · rintro ⟨f, hf1, hf2⟩
        rcases List.mem_append.1 hf1 with hf1 | hf1
        · exact Or.inl ⟨f, hf1, hf2⟩
        · rw [List.mem_singleton.1 hf1] at hf2
          exact Or.inr ⟨hf2.symm, j, hj1, by rw [hj2]; exact hf2⟩
      · rintro (⟨f, hf1, hf2⟩ | ⟨rfl, _⟩)
        · exact ⟨f, List.mem_append_left _ hf1, hf2⟩
        · exact ⟨⟨i, now, "LEON"⟩, List.mem_append_right _ (by simp), rfl⟩

theorem fragged_fold (now : Int) (i : Nat) (l : List Nat) : ∀ d : DB, (∀ x ∈ l, ∃ j ∈ d.jobs, j.id = x) →
    ((l.foldl (fun d i => (fragJob d now i "oar").2) d).jobs = d.jobs) ∧
    (Fragged (l.foldl (fun d i => (fragJob d now i "oar").2) d) i ↔ Fragged d i ∨ i ∈ l) := by
  induction l with
  | nil => intro d _; simp
  | cons x xs ih =>
    intro d hd
    have hjobs : (fragJob d now x "oar").2.jobs = d.jobs := (Jobs.fragJob_jobs d now x "oar").1
    obtain ⟨h1, h2⟩ := ih (fragJob d now x "oar").2 (fun y hy => by rw [hjobs]; exact hd y (by simp [hy]))
    rw [List.foldl_cons]
    refine ⟨h1.trans hjobs, ?_⟩
    rw [h2, fragged_fragJob]
    constructor
    · rintro ((h | ⟨h, _⟩) | h)
      · exact Or.inl h
      · exact Or.inr (by simp [h])
      · exact Or.inr (by simp [h])
    · rintro (h | h)
      · exact Or.inl (Or.inl h)
      · rcases List.mem_cons.1 h with h | h
        · exact Or.inl (Or.inr ⟨h, by rw [h]; exact hd x (by simp)⟩)
        · exact Or.inr h

/-- Job `i` uses resource `rid` and has not ended, and it is not one of the two kinds of jobs that survive a resource. -/
def Uses (w : RDB) (i rid : Nat) : Prop :=
  ∃ j ∈ w.db.jobs, j.id = i ∧ j.state ≠ "Terminated" ∧ j.state ≠ "Error" ∧ "cosystem" ∉ j.types ∧ "noop" ∉ j.types ∧
    ∃ a ∈ w.assigned, a.current = true ∧ a.rid = rid ∧ (a.mold, i) ∈ w.molds

theorem mem_jobsToFrag (w : RDB) (i rid : Nat) : i ∈ jobsToFrag w rid ↔ Uses w i rid := by
  unfold jobsToFrag Uses
  rw [List.mem_map]
  constructor
  · rintro ⟨j, hj, e⟩
    obtain ⟨h1, h2⟩ := List.mem_filter.1 hj
    simp only [Bool.and_eq_true, List.any_eq_true, beq_iff_eq, Bool.not_eq_true', beq_eq_false_iff_ne, decide_eq_false_iff_not] at h2
    obtain ⟨⟨⟨⟨⟨a, ha, ⟨ha1, ha2⟩, m, hm, hm1, hm2⟩, h3⟩, h4⟩, h5⟩, h6⟩ := h2
    refine ⟨j, h1, e, h3, h4, h5, h6, a, ha, ha1, ha2, ?_⟩
    have : m = (a.mold, i) := Prod.ext hm1 (hm2.trans e)
    rw [← this]; exact hm
  · rintro ⟨j, h1, e, h3, h4, h5, h6, a, ha, ha1, ha2, hm⟩
    refine ⟨j, List.mem_filter.2 ⟨h1, ?_⟩, e⟩
    simp only [Bool.and_eq_true, List.any_eq_true, beq_iff_eq, Bool.not_eq_true', beq_eq_false_iff_ne, decide_eq_false_iff_not]
    exact ⟨⟨⟨⟨⟨a, ha, ⟨ha1, ha2⟩, _, hm, rfl, e.symm⟩, h3⟩, h4⟩, h5⟩, h6⟩

/-- One resource. -/
theorem changeOne_frags {w : RDB} (now : Int) (rid : Nat) (next : String) (i : Nat) :
    (changeOne now w rid next).db.jobs = w.db.jobs ∧ (changeOne now w rid next).assigned = w.assigned ∧
    (changeOne now w rid next).molds = w.molds ∧
    (Fragged (changeOne now w rid next).db i ↔ Fragged w.db i ∨
      ((next = "Dead" ∨ next = "Absent") ∧ (∃ r, w.res.find? (fun r => r.id == rid) = some r ∧ r.state ≠ next) ∧ Uses w i rid)) := by
  unfold changeOne
  cases hf : w.res.find? (fun r => r.id == rid) with
  | none => simp
  | some r =>
    dsimp only
    by_cases hst : r.state ≠ next
    · rw [if_pos hst]
      have hu : ∀ k, k ∈ jobsToFrag (setNext (setResState w now rid next r.nextFinaud) rid "UnChanged") rid ↔ Uses w k rid :=
        fun k => mem_jobsToFrag (setNext (setResState w now rid next r.nextFinaud) rid "UnChanged") k rid
      by_cases hn : next = "Dead" ∨ next = "Absent"
      · rw [if_pos hn]
        obtain ⟨h1, h2⟩ := fragged_fold now i (jobsToFrag (setNext (setResState w now rid next r.nextFinaud) rid "UnChanged") rid)
          w.db (fun x hx => by
            obtain ⟨j, hj, e, _⟩ := (hu x).1 hx
            exact ⟨j, hj, e⟩)
        refine ⟨h1, rfl, rfl, h2.trans ?_⟩
        rw [hu]
        constructor
        · rintro (h | h)
          · exact Or.inl h
          · exact Or.inr ⟨hn, ⟨r, rfl, hst⟩, h⟩
        · rintro (h | ⟨_, _, h⟩)
          · exact Or.inl h
          · exact Or.inr h
      · rw [if_neg hn]
        refine ⟨rfl, rfl, rfl, ?_⟩
        constructor
        · exact Or.inl
        · rintro (h | ⟨h, _⟩)
          · exact h
          · exact absurd h hn
    · rw [if_neg hst]
      refine ⟨rfl, rfl, rfl, ?_⟩
      constructor
      · exact Or.inl
      · rintro (h | ⟨_, ⟨x, hx, hx2⟩, _⟩)
        · exact h
        · rw [← Option.some.inj hx] at hx2
          exact absurd hx2 hst

theorem find_map_other {l : List Res} {p : Nat × String} {rid : Nat} (hne : rid ≠ p.1) :
    (l.map (g p)).find? (fun r => r.id == rid) = l.find? (fun r => r.id == rid) := by
  induction l with
  | nil => rfl
  | cons x xs ih =>
    rw [List.map_cons, List.find?_cons, List.find?_cons, g_id]
    by_cases hx : x.id = rid
    · rw [show (x.id == rid) = true by simpa using hx]
      dsimp only
      unfold g
      rw [if_neg (by rw [hx]; exact hne)]
    · rw [show (x.id == rid) = false by simpa using hx]
      exact ih

theorem changeFold_frags (now : Int) (i : Nat) (ps : List (Nat × String)) : (ps.map Prod.fst).Nodup → ∀ {w : RDB},
    (∀ a ∈ w.res, ∀ b ∈ w.res, a.id = b.id → a = b) →
    (Fragged (ps.foldl (fun w p => changeOne now w p.1 p.2) w).db i ↔ Fragged w.db i ∨ ∃ p ∈ ps,
      (p.2 = "Dead" ∨ p.2 = "Absent") ∧ (∃ r, w.res.find? (fun r => r.id == p.1) = some r ∧ r.state ≠ p.2) ∧ Uses w i p.1) := by
  induction ps with
  | nil => intro _ w _; simp
  | cons p ps ih =>
    intro hd w hu
    rw [List.map_cons, List.nodup_cons] at hd
    obtain ⟨h1, h2, h3, h4⟩ := changeOne_frags (w := w) now p.1 p.2 i
    have e := changeOne_res hu now p.1 p.2
    rw [List.foldl_cons, ih hd.2 (by rw [e]; exact unique_map p hu), h4]
    have huses : ∀ q, Uses (changeOne now w p.1 p.2) i q ↔ Uses w i q := by
      intro q
      unfold Uses
      rw [h1, h2, h3]
    have hex : (∃ q ∈ ps, (q.2 = "Dead" ∨ q.2 = "Absent") ∧
          (∃ r, (changeOne now w p.1 p.2).res.find? (fun r => r.id == q.1) = some r ∧ r.state ≠ q.2) ∧ Uses (changeOne now w p.1 p.2) i q.1) ↔
        ∃ q ∈ ps, (q.2 = "Dead" ∨ q.2 = "Absent") ∧
          (∃ r, w.res.find? (fun r => r.id == q.1) = some r ∧ r.state ≠ q.2) ∧ Uses w i q.1 := by
      constructor
      · rintro ⟨q, hq, hq1, hq2, hq3⟩
        have hne : q.1 ≠ p.1 := fun e' => hd.1 (List.mem_map.2 ⟨q, hq, e'⟩)
        rw [e, find_map_other hne] at hq2
        exact ⟨q, hq, hq1, hq2, (huses _).1 hq3⟩
      · rintro ⟨q, hq, hq1, hq2, hq3⟩
        have hne : q.1 ≠ p.1 := fun e' => hd.1 (List.mem_map.2 ⟨q, hq, e'⟩)
        refine ⟨q, hq, hq1, ?_, (huses _).2 hq3⟩
        rw [e, find_map_other hne]
        exact hq2
    rw [hex]
    constructor
    · rintro ((h | h) | ⟨q, hq, h⟩)
      · exact Or.inl h
      · exact Or.inr ⟨p, by simp, h⟩
      · exact Or.inr ⟨q, by simp [hq], h⟩
    · rintro (h | ⟨q, hq, h⟩)
      · exact Or.inl (Or.inl h)
      · rcases List.mem_cons.1 hq with rfl | hq
        · exact Or.inl (Or.inr h)
        · exact Or.inr ⟨q, hq, h⟩

/-- In every history, the treatment of the requested states asks for the deletion of exactly the jobs that use a resource that
becomes Dead or Absent. -/
theorem changeAll_frags {api : Bool} {t : Int} {w : RDB} (h : RHistory api t w) (now : Int) (i : Nat) :
    Fragged (changeAll now w).db i ↔ Fragged w.db i ∨
      ∃ r ∈ w.res, (r.next = "Dead" ∨ r.next = "Absent") ∧ r.state ≠ r.next ∧ Uses w i r.id := by
  have hok := h.ok.1
  have hsort : (w.res.map Res.id).Pairwise (· < ·) := by rw [← tab_ids]; exact hok.ids
  unfold changeAll
  rw [changeFold_frags now i _ (changing_nodup hsort) hok.unique]
  apply or_congr_right
  constructor
  · rintro ⟨p, hp, h1, ⟨r, hr1, hr2⟩, h3⟩
    unfold changing at hp
    obtain ⟨x, hx, rfl⟩ := List.mem_map.1 hp
    obtain ⟨hx1, _⟩ := List.mem_filter.1 hx
    have hrm := List.mem_of_find?_eq_some hr1
    have hrid : r.id = x.id := by simpa using List.find?_some hr1
    have := hok.unique r hrm x hx1 hrid
    rw [this] at hr2
    exact ⟨x, hx1, h1, hr2, h3⟩
  · rintro ⟨r, hr, h1, h2, h3⟩
    refine ⟨(r.id, r.next), List.mem_map.2 ⟨r, List.mem_filter.2 ⟨hr, ?_⟩, rfl⟩, h1, ?_, h3⟩
    · rcases h1 with e | e <;> rw [e] <;> decide
    · cases hf : w.res.find? (fun x => x.id == r.id) with
      | none => exact absurd (beq_self_eq_true r.id) (List.find?_eq_none.1 hf r hr)
      | some y =>
        have hy := List.mem_of_find?_eq_some hf
        have hyid : y.id = r.id := by simpa using List.find?_some hf
        exact ⟨y, rfl, by rw [hok.unique y hy r hr hyid]; exact h2⟩

/-- Two resources: the first one becomes Absent; its job is deleted, the one of the other resource and the cosystem job are
not. -/
def exChange : RDB :=
  ⟨[{ id := 1, host := "n1", state := "Alive", next := "Absent" }, { id := 2, host := "n1", state := "Alive" }],
   [⟨1, "state", "Alive", 5, 0⟩, ⟨2, "state", "Alive", 5, 0⟩],
   ⟨[⟨1, "bob", "Running", "PASSIVE", "None", 5, 0, false, [], none, 7, 200, 0, 0⟩,
     ⟨2, "bob", "Running", "PASSIVE", "None", 5, 0, false, [], none, 8, 200, 0, 0⟩,
     ⟨3, "bob", "Running", "PASSIVE", "None", 5, 0, false, ["cosystem"], none, 9, 200, 0, 0⟩], [], [], [], []⟩,
   [⟨7, 1, true⟩, ⟨8, 2, true⟩, ⟨9, 1, true⟩], [(7, 1), (8, 2), (9, 3)]⟩

theorem exChange_history : RHistory false 6 exChange := by
  have h0 : RHistory false 5 ⟨[], [], exNoJobs, [], []⟩ := .start 5 (by decide) _ _ _
  have h1 := RHistory.step 5 5 _ _ h0 (by decide) (.add 1 "n1" "Alive" (by simp) (by simp))
  have h2 := RHistory.step 5 5 _ _ h1 (by decide) (.add 2 "n1" "Alive" (by simp [addRes]) (by simp [addRes]))
  have h3 := RHistory.step 5 5 _ _ h2 (by decide) (.next 1 "Absent")
  exact RHistory.step 5 6 _ exChange h3 (by decide) (.jobs exChange.db exChange.assigned exChange.molds)

example : (changeAll 8 exChange).db.frags = [⟨1, 8, "LEON"⟩] ∧ (changeAll 8 exChange).res.map Res.state = ["Absent", "Alive"] := by decide

/-! ## C55: Finaud -/

theorem mem_firstOfHost {seen : List String} {l : List Res} {n : Res} (h : n ∈ firstOfHost seen l) : n ∈ l := by
  induction l generalizing seen with
  | nil => exact h
  | cons r rs ih =>
    unfold firstOfHost at h
    split at h
    · exact List.mem_cons_of_mem _ (ih h)
    · rcases List.mem_cons.1 h with h | h
      · exact List.mem_cons.2 (Or.inl h)
      · exact List.mem_cons_of_mem _ (ih h)

/-- The nodes considered by Finaud, in words: a resource of the node is Alive, or suspected by Finaud itself, of the default type
and without requested state, and no job runs on the node unless the option asks to check those too. -/
def Checked (w : RDB) (all : Bool) (n : Res) : Prop :=
  n ∈ w.res ∧ (n.state = "Alive" ∨ (n.state = "Suspected" ∧ n.finaud = true)) ∧ n.rtype = "default" ∧ n.next = "UnChanged" ∧
    (all = true ∨ ¬ ∃ a ∈ w.assigned, a.current = true ∧ ∃ r ∈ w.res, r.id = a.rid ∧ r.host = n.host ∧ r.rtype = "default")

theorem occupied_iff (w : RDB) (h : String) : occupied w h = true ↔ ∃ a ∈ w.assigned, a.current = true ∧ ∃ r ∈ w.res, r.id = a.rid ∧ r.host = h ∧ r.rtype = "default" := by
  simp [occupied, and_assoc]

theorem occupied_false_iff (w : RDB) (h : String) : occupied w h = false ↔ ¬ ∃ a ∈ w.assigned, a.current = true ∧ ∃ r ∈ w.res, r.id = a.rid ∧ r.host = h ∧ r.rtype = "default" := by
  rw [← occupied_iff]; simp

/-- Finaud requests a state only for the resources of a checked node: Suspected if the node does not answer and was Alive, Alive
if it answers again and was suspected by Finaud. All the other resources are untouched, and no state is changed. -/
theorem finaud_only (w : RDB) (all : Bool) (bad : String → Bool) :
    ∃ f : Res → Res, (finaudRun w all bad).res = w.res.map f ∧ ∀ r ∈ w.res, f r = r ∨
      ∃ n, Checked w all n ∧ n.host = r.host ∧
        ((bad r.host = true ∧ n.state = "Alive" ∧ f r = { r with next := "Suspected", nextFinaud := true }) ∨
         (bad r.host = false ∧ n.state = "Suspected" ∧ n.finaud = true ∧ f r = { r with next := "Alive", nextFinaud := true })) := by
  have hfold : ∀ (l : List Res), (∀ n ∈ l, Checked w all n) → ∀ (w0 : RDB) (f0 : Res → Res), w0.res = w.res.map f0 →
      (∀ r ∈ w.res, (f0 r).host = r.host) →
      (∀ r ∈ w.res, f0 r = r ∨
      ∃ n, Checked w all n ∧ n.host = r.host ∧
        ((bad r.host = true ∧ n.state = "Alive" ∧ f0 r = { r with next := "Suspected", nextFinaud := true }) ∨
         (bad r.host = false ∧ n.state = "Suspected" ∧ n.finaud = true ∧ f0 r = { r with next := "Alive", nextFinaud := true }))) →
      ∃ f : Res → Res, (l.foldl (finaudNode bad) w0).res = w.res.map f ∧ ∀ r ∈ w.res, f r = r ∨
      ∃ n, Checked w all n ∧ n.host = r.host ∧
        ((bad r.host = true ∧ n.state = "Alive" ∧ f r = { r with next := "Suspected", nextFinaud := true }) ∨
         (bad r.host = false ∧ n.state = "Suspected" ∧ n.finaud = true ∧ f r = { r with next := "Alive", nextFinaud := true })) := by
    intro l
    induction l with
    | nil => intro _ w0 f0 h0 _ h2; exact ⟨f0, h0, h2⟩
    | cons n ns ih =>
      intro hl w0 f0 h0 hhost h2
      rw [List.foldl_cons]
      have hn := hl n (by simp)
      have hns : ∀ m ∈ ns, Checked w all m := fun m hm => hl m (by simp [hm])
      have step : ∀ st : String, (setNodeNextFinaud (setNodeNext w0 n.host st) n.host true).res =
          w.res.map (fun r => if r.host = n.host then { f0 r with next := st, nextFinaud := true } else f0 r) := by
        intro st
        unfold setNodeNextFinaud setNodeNext
        rw [upd_res, upd_res, h0, List.map_map, List.map_map]
        apply List.map_congr_left
        intro r hr
        simp only [Function.comp]
        by_cases hx : r.host = n.host
        · rw [if_pos (show ((f0 r).host == n.host) = true by rw [hhost r hr]; simpa using hx), if_pos (show ((f0 r).host == n.host) = true by rw [hhost r hr]; simpa using hx), if_pos hx]
        · rw [if_neg (show ¬ ((f0 r).host == n.host) = true by rw [hhost r hr]; simpa using hx), if_neg (show ¬ ((f0 r).host == n.host) = true by rw [hhost r hr]; simpa using hx), if_neg hx]
      have over : ∀ r ∈ w.res, ∀ st : String, ({ f0 r with next := st, nextFinaud := true } : Res) = { r with next := st, nextFinaud := true } := by
        intro r hr st
        rcases h2 r hr with e | ⟨_, _, _, ⟨_, _, e⟩ | ⟨_, _, _, e⟩⟩ <;> rw [e]
      unfold finaudNode
      by_cases hb : bad n.host = true ∧ n.state = "Alive"
      · rw [if_pos hb]
        refine ih hns _ (fun r => if r.host = n.host then { f0 r with next := "Suspected", nextFinaud := true } else f0 r) (step "Suspected") ?_ ?_
        · intro r hr
          dsimp only
          split <;> exact hhost r hr
        · intro r hr
          dsimp only
          by_cases hx : r.host = n.host
          · rw [if_pos hx]
            exact Or.inr ⟨n, hn, hx.symm, Or.inl ⟨by rw [hx]; exact hb.1, hb.2, over r hr _⟩⟩
          · rw [if_neg hx]; exact h2 r hr
      · rw [if_neg hb]
        by_cases hg : bad n.host = false ∧ n.state = "Suspected"
        · rw [if_pos hg]
          refine ih hns _ (fun r => if r.host = n.host then { f0 r with next := "Alive", nextFinaud := true } else f0 r) (step "Alive") ?_ ?_
          · intro r hr
            dsimp only
            split <;> exact hhost r hr
          · intro r hr
            dsimp only
            by_cases hx : r.host = n.host
            · rw [if_pos hx]
              have hfin : n.finaud = true := by
                rcases hn.2.1 with e | e
                · rw [hg.2] at e; exact absurd e (by decide)
                · exact e.2
              exact Or.inr ⟨n, hn, hx.symm, Or.inr ⟨by rw [hx]; exact hg.1, hg.2, hfin, over r hr _⟩⟩
            · rw [if_neg hx]; exact h2 r hr
        · rw [if_neg hg]
          exact ih hns w0 f0 h0 hhost h2
  refine hfold _ ?_ w (fun r => r) (by simp) (fun _ _ => rfl) (fun _ _ => Or.inl rfl)
  intro n hn
  obtain ⟨h1, h2⟩ := List.mem_filter.1 hn
  obtain ⟨h3, h4⟩ := List.mem_filter.1 (mem_firstOfHost h1)
  unfold finaudable at h4
  simp only [Bool.and_eq_true, Bool.or_eq_true, beq_iff_eq, Bool.not_eq_true'] at h4 h2
  exact ⟨h3, h4.1.1, h4.1.2, h4.2, h2.imp id (occupied_false_iff w n.host).1⟩

theorem firstOfHost_host {seen : List String} {l : List Res} {h : String} (hs : h ∉ seen) (hl : ∃ n ∈ l, n.host = h) :
    ∃ n ∈ firstOfHost seen l, n.host = h := by
  induction l generalizing seen with
  | nil => obtain ⟨n, hn, _⟩ := hl; cases hn
  | cons r rs ih =>
    unfold firstOfHost
    by_cases hr : r.host = h
    · rw [if_neg (by rw [hr]; exact hs)]
      exact ⟨r, by simp, hr⟩
    · obtain ⟨n, hn, e⟩ := hl
      have hn' : n ∈ rs := by
        rcases List.mem_cons.1 hn with rfl | h'
        · exact absurd e hr
        · exact h'
      split
      · exact ih hs ⟨n, hn', e⟩
      · obtain ⟨m, hm, em⟩ := ih (seen := r.host :: seen) (by
          simp only [List.mem_cons, not_or]; exact ⟨fun e => hr e.symm, hs⟩) ⟨n, hn', e⟩
        exact ⟨m, List.mem_cons_of_mem _ hm, em⟩

theorem nodeRequest (w : RDB) (host st : String) (b : Bool) :
    (∀ r ∈ (setNodeNextFinaud (setNodeNext w host st) host b).res, r.host = host → r.next = st ∧ r.nextFinaud = b) ∧
    ∀ h, h ≠ host → ∀ P : Res → Prop, (∀ r ∈ w.res, r.host = h → P r) →
      ∀ r ∈ (setNodeNextFinaud (setNodeNext w host st) host b).res, r.host = h → P r := by
  unfold setNodeNextFinaud setNodeNext
  rw [upd_res, upd_res, List.map_map]
  constructor
  · intro r hr
    obtain ⟨x, hx, rfl⟩ := List.mem_map.1 hr
    simp only [Function.comp]
    by_cases hh : x.host = host
    · simp [hh]
    · simp [hh]
  · intro h hne P hP r hr
    obtain ⟨x, hx, rfl⟩ := List.mem_map.1 hr
    simp only [Function.comp]
    by_cases hh : x.host = host
    · simp only [hh, beq_self_eq_true, if_true]
      intro e
      exact absurd e.symm hne
    · simp only [beq_iff_eq, hh, if_false]
      exact hP x hx

theorem finaudFold_complete (bad : String → Bool) (h st : String) (l : List Res)
    (hst : ∀ n ∈ l, n.host = h → ∀ w, finaudNode bad w n = { setNodeNextFinaud (setNodeNext w h st) h true with db := (finaudNode bad w n).db }) :
    ∀ w : RDB, ((∃ n ∈ l, n.host = h) ∨ ∀ r ∈ w.res, r.host = h → r.next = st ∧ r.nextFinaud = true) →
      ∀ r ∈ (l.foldl (finaudNode bad) w).res, r.host = h → r.next = st ∧ r.nextFinaud = true := by
  induction l with
  | nil =>
    intro w hw
    rcases hw with ⟨n, hn, _⟩ | hw
    · cases hn
    · exact hw
  | cons n ns ih =>
    intro w hw
    rw [List.foldl_cons]
    have ih' := ih (fun m hm => hst m (List.mem_cons_of_mem _ hm))
    by_cases hn : n.host = h
    · apply ih'
      right
      rw [hst n (by simp) hn w]
      exact (nodeRequest w h st true).1
    · apply ih'
      rcases hw with ⟨m, hm, e⟩ | hw
      · left
        rcases List.mem_cons.1 hm with rfl | hm
        · exact absurd e hn
        · exact ⟨m, hm, e⟩
      · right
        unfold finaudNode
        split
        · exact (nodeRequest w n.host _ true).2 h (fun e => hn e.symm) _ hw
        · split
          · exact (nodeRequest w n.host _ true).2 h (fun e => hn e.symm) _ hw
          · exact hw

/-- Every checked node that was Alive and does not answer is requested to become Suspected (all its resources), and every
checked node suspected by Finaud that answers is requested to become Alive. -/
theorem finaud_complete (w : RDB) (all : Bool) (bad : String → Bool) (n : Res) (hn : Checked w all n)
    (hsame : ∀ m, Checked w all m → m.host = n.host → m.state = n.state) :
    (bad n.host = true → n.state = "Alive" →
      ∀ r ∈ (finaudRun w all bad).res, r.host = n.host → r.next = "Suspected" ∧ r.nextFinaud = true) ∧
    (bad n.host = false → n.state = "Suspected" →
      ∀ r ∈ (finaudRun w all bad).res, r.host = n.host → r.next = "Alive" ∧ r.nextFinaud = true) := by
  have hchk : ∀ m ∈ (firstOfHost [] (w.res.filter finaudable)).filter (fun n => all || !occupied w n.host), Checked w all m := by
    intro n hn
    obtain ⟨h1, h2⟩ := List.mem_filter.1 hn
    obtain ⟨h3, h4⟩ := List.mem_filter.1 (mem_firstOfHost h1)
    unfold finaudable at h4
    simp only [Bool.and_eq_true, Bool.or_eq_true, beq_iff_eq, Bool.not_eq_true'] at h4 h2
    exact ⟨h3, h4.1.1, h4.1.2, h4.2, h2.imp id (occupied_false_iff w n.host).1⟩
  have hex : ∃ m ∈ (firstOfHost [] (w.res.filter finaudable)).filter (fun n => all || !occupied w n.host), m.host = n.host := by
    obtain ⟨m, hm, e⟩ := firstOfHost_host (seen := []) (l := w.res.filter finaudable) (h := n.host) (by simp)
      ⟨n, List.mem_filter.2 ⟨hn.1, by
        unfold finaudable
        simp only [Bool.and_eq_true, Bool.or_eq_true, beq_iff_eq]
        exact ⟨⟨hn.2.1, hn.2.2.1⟩, hn.2.2.2.1⟩⟩, rfl⟩
    refine ⟨m, List.mem_filter.2 ⟨hm, ?_⟩, e⟩
    rw [e]
    rcases hn.2.2.2.2.imp id (occupied_false_iff w n.host).2 with h | h <;> simp [h]
  constructor
  · intro hb hs
    apply finaudFold_complete bad n.host "Suspected" _ ?_ w (Or.inl hex)
    intro m hm e w0
    have := hsame m (hchk m hm) e
    unfold finaudNode
    rw [if_pos ⟨by rw [e]; exact hb, by rw [this]; exact hs⟩, e]
  · intro hb hs
    apply finaudFold_complete bad n.host "Alive" _ ?_ w (Or.inl hex)
    intro m hm e w0
    have := hsame m (hchk m hm) e
    unfold finaudNode
    rw [if_neg (by rw [e, hb]; simp), if_pos ⟨by rw [e]; exact hb, by rw [this]; exact hs⟩, e]

example : Checked ⟨[{ id := 1, host := "n1", state := "Alive" }, { id := 2, host := "n1", state := "Dead" }], [], exNoJobs, [], []⟩ false
    { id := 1, host := "n1", state := "Alive" } :=
  ⟨List.mem_cons_self, Or.inl rfl, rfl, rfl, Or.inr (by decide)⟩

/-- A Dead resource comes back Alive because another resource of its node was suspected and answers again. -/
theorem finaud_resurrects_violated :
    (changeAll 40 (finaudRun (changeAll 30 (finaudRun
      ⟨[{ id := 1, host := "n1", state := "Alive" }, { id := 2, host := "n1", state := "Dead" }], [], exNoJobs, [], []⟩ true (fun _ => true))) true
      (fun _ => false))).res.map Res.state = ["Alive", "Alive"] := by decide

/-! ## C56: the removal of a resource -/

/-- Only an administrator removes a resource, only when it is Dead; otherwise nothing changes. After the removal no table refers
to the resource nor to the jobs that used it, the other resources and the jobs that never used it are untouched. -/
theorem removeRes_spec {w w' : RDB} {rid : Nat} {user : String} {c : Nat} (h : removeRes w rid user = some (c, w')) :
    (c ≠ 0 → w' = w) ∧
    (c = 0 ↔ (user = "oar" ∨ user = "root") ∧ ∃ r, w.res.find? (fun r => r.id == rid) = some r ∧ r.state = "Dead") ∧
    (c = 0 → w'.res = w.res.filter (fun r => r.id != rid) ∧ w'.rlog = w.rlog.filter (fun l => l.rid != rid) ∧
      (∀ a ∈ w'.assigned, a.rid ≠ rid) ∧
      (∀ j ∈ w.db.jobs, (∀ a ∈ w.assigned, a.rid = rid → a.mold ≠ j.assigned) → (∀ k ∈ w.db.jobs, k.id = j.id → k = j) → j ∈ w'.db.jobs) ∧
      (∀ j ∈ w.db.jobs, (∃ a ∈ w.assigned, a.rid = rid ∧ a.mold = j.assigned) →
        (∀ k ∈ w'.db.jobs, k.id ≠ j.id) ∧ (∀ e ∈ w'.db.events, e.jid ≠ j.id) ∧ (∀ f ∈ w'.db.frags, f.jid ≠ j.id) ∧
        ∀ a ∈ w'.assigned, a.mold ≠ j.assigned)) := by
  unfold removeRes at h
  split at h
  · rename_i hu
    have h1 := (Prod.mk.inj (Option.some.inj h))
    rw [← h1.1, ← h1.2]
    refine ⟨fun _ => rfl, ⟨fun e => absurd e (by decide), ?_⟩, fun e => absurd e (by decide)⟩
    rintro ⟨h2 | h2, _⟩
    · exact absurd h2 hu.1
    · exact absurd h2 hu.2
  · rename_i hu
    have hu' : user = "oar" ∨ user = "root" := by
      by_cases h1 : user = "oar"
      · exact Or.inl h1
      · by_cases h2 : user = "root"
        · exact Or.inr h2
        · exact absurd ⟨h1, h2⟩ hu
    cases hf : w.res.find? (fun r => r.id == rid) with
    | none => rw [hf] at h; exact absurd h (by simp)
    | some r =>
      rw [hf] at h
      dsimp only at h
      split at h
      · rename_i hd
        have h1 := (Prod.mk.inj (Option.some.inj h))
        rw [← h1.1, ← h1.2]
        have hany : ∀ j ∈ w.db.jobs, (∃ a ∈ w.assigned, a.rid = rid ∧ a.mold = j.assigned) → j ∈ jobsOf w rid := by
          rintro j hj ⟨a, ha, ha1, ha2⟩
          refine List.mem_filter.2 ⟨hj, List.any_eq_true.2 ⟨a, ha, by simp [ha1, ha2]⟩⟩
        refine ⟨fun e => absurd rfl e, ⟨fun _ => ⟨hu', r, rfl, hd⟩, fun _ => rfl⟩, fun _ => ⟨rfl, rfl, ?_, ?_, ?_⟩⟩
        · intro a ha
          have := (List.mem_filter.1 ha).2
          simp only [Bool.and_eq_true, bne_iff_ne] at this
          exact this.1
        · intro j hj hno huniq
          refine List.mem_filter.2 ⟨hj, ?_⟩
          rw [Bool.not_eq_true', List.any_eq_false]
          intro k hk
          obtain ⟨hk1, hk2⟩ := List.mem_filter.1 hk
          intro e
          have hkj := huniq k hk1 (by simpa using e)
          rw [hkj] at hk2
          obtain ⟨a, ha, ha2⟩ := List.any_eq_true.1 hk2
          simp only [Bool.and_eq_true, beq_iff_eq] at ha2
          exact hno a ha ha2.1 ha2.2
        · intro j hj hex
          have hjm := hany j hj hex
          refine ⟨?_, ?_, ?_, ?_⟩
          · intro k hk e
            have := (List.mem_filter.1 hk).2
            rw [Bool.not_eq_true', List.any_eq_false] at this
            exact this j hjm (by simp [e])
          · intro k hk e
            have := (List.mem_filter.1 hk).2
            rw [Bool.not_eq_true', List.any_eq_false] at this
            exact this j hjm (by simp [e])
          · intro k hk e
            have := (List.mem_filter.1 hk).2
            rw [Bool.not_eq_true', List.any_eq_false] at this
            exact this j hjm (by simp [e])
          · intro a ha e
            have := (List.mem_filter.1 ha).2
            rw [Bool.and_eq_true, Bool.not_eq_true', List.any_eq_false] at this
            exact this.2 j hjm (by simp [e])
      · rename_i hd
        have h1 := (Prod.mk.inj (Option.some.inj h))
        rw [← h1.1, ← h1.2]
        refine ⟨fun _ => rfl, ⟨fun e => absurd e (by decide), ?_⟩, fun e => absurd e (by decide)⟩
        rintro ⟨_, x, hx, hx2⟩
        rw [← Option.some.inj hx] at hx2
        exact absurd hx2 hd

example : ∃ w', removeRes { exChange with res := [{ id := 1, host := "n1", state := "Dead" }] } 1 "root" = some (0, w') ∧
    w'.db.jobs.map JobRow.id = [2] ∧ w'.res.map Res.id = [] := ⟨_, rfl, by decide⟩

end Oar.Res
