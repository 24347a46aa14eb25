import Verif.Desktop
import Verif.ResourcesProps

/-!
# The machines that leave at a given date (C127)
-/

namespace Oar.Res

/-- The machine has left: it was to leave at a date which is past, and it is still said Alive. -/
def Gone (desk : Desk) (now : Int) (r : Res) : Prop := r.state = "Alive" ∧ ∃ e, desk r.id = some e ∧ 0 < e ∧ e < now

/-- The current state of the resource, whichever it is, began more than `timeout` seconds ago. -/
def Long (w : RDB) (now timeout : Int) (r : Res) : Prop := ∃ l, (w.logOf r.id "state").getLast? = some l ∧ l.start + timeout < now

/-- The report of a departure. -/
def report (host : String) : Jobs.Event := ⟨"LOG_SUSPECTED", 0, true, [host]⟩

/-- Request the state Suspected, Finaud having nothing to do with it. -/
def Res.toSuspected (r : Res) : Res := { r with next := "Suspected", nextFinaud := false }

theorem isExpired_iff (desk : Desk) (now : Int) (r : Res) : isExpired desk now r = true ↔ Gone desk now r := by
  unfold isExpired Gone
  cases h : desk r.id with
  | none => simp
  | some e => simp

theorem suspectOne_spec (w : RDB) (i : Nat) :
    (suspectOne w i).res = w.res.map (fun r => if r.id = i then r.toSuspected else r) ∧ (suspectOne w i).rlog = w.rlog ∧
      (suspectOne w i).assigned = w.assigned ∧ (suspectOne w i).molds = w.molds ∧
      (suspectOne w i).db = { w.db with events := w.db.events ++ ((w.res.find? (fun r => r.id == i)).map (fun r => report r.host)).toList } := by
  have hres : (setNext w i "Suspected").res = w.res.map (fun r => if r.id = i then r.toSuspected else r) := by
    unfold setNext
    rw [upd_res]
    apply List.map_congr_left
    intro r _
    simp only [beq_iff_eq]
    rfl
  have hf : (setNext w i "Suspected").res.find? (fun r => r.id == i) = (w.res.find? (fun r => r.id == i)).map Res.toSuspected := by
    rw [hres, List.find?_map]
    have : (fun r : Res => r.id == i) ∘ (fun r => if r.id = i then r.toSuspected else r) = fun r => r.id == i := by
      funext r
      simp only [Function.comp]
      split <;> rfl
    rw [this]
    cases h : w.res.find? (fun r => r.id == i) with
    | none => rfl
    | some r =>
      have := List.find?_some h
      simp only [beq_iff_eq] at this
      simp [this]
  unfold suspectOne
  dsimp only
  rw [hf]
  cases h : w.res.find? (fun r => r.id == i) with
  | none =>
    refine ⟨hres, rfl, rfl, rfl, ?_⟩
    simp [setNext, RDB.upd]
  | some r =>
    refine ⟨hres, rfl, rfl, rfl, ?_⟩
    simp [setNext, RDB.upd, Jobs.addEventHosts, report, Res.toSuspected, List.eraseDups_cons]

theorem suspect_fold (l : List Nat) : ∀ w : RDB,
    (l.foldl suspectOne w).res = w.res.map (fun r => if r.id ∈ l then r.toSuspected else r) ∧ (l.foldl suspectOne w).rlog = w.rlog ∧
      (l.foldl suspectOne w).assigned = w.assigned ∧ (l.foldl suspectOne w).molds = w.molds ∧
      (l.foldl suspectOne w).db = { w.db with events := w.db.events ++ l.filterMap (fun i => (w.res.find? (fun r => r.id == i)).map (fun r => report r.host)) } := by
  induction l with
  | nil => intro w; simp
  | cons i l ih =>
    intro w
    rw [List.foldl_cons]
    obtain ⟨a1, a2, a3, a4, a5⟩ := ih (suspectOne w i)
    obtain ⟨b1, b2, b3, b4, b5⟩ := suspectOne_spec w i
    refine ⟨?_, a2.trans b2, a3.trans b3, a4.trans b4, ?_⟩
    · rw [a1, b1, List.map_map]
      apply List.map_congr_left
      intro r _
      simp only [Function.comp]
      by_cases hx : r.id = i
      · rw [if_pos hx, if_pos (show r.id ∈ i :: l by simp [hx])]
        split <;> rfl
      · rw [if_neg hx]
        by_cases hl : r.id ∈ l
        · rw [if_pos hl, if_pos (by simp [hl])]
        · rw [if_neg hl, if_neg (by simp [hl, hx])]
    · have hfind : ∀ k, ((suspectOne w i).res.find? (fun r => r.id == k)).map (fun r => report r.host) =
          (w.res.find? (fun r => r.id == k)).map (fun r => report r.host) := by
        intro k
        rw [b1, List.find?_map, Option.map_map]
        have h1 : (fun r : Res => r.id == k) ∘ (fun r => if r.id = i then r.toSuspected else r) = fun r => r.id == k := by
          funext r
          simp only [Function.comp]
          split <;> rfl
        have h2 : (fun r : Res => report r.host) ∘ (fun r => if r.id = i then r.toSuspected else r) = fun r => report r.host := by
          funext r
          simp only [Function.comp]
          split <;> rfl
        rw [h1, h2]
      rw [a5, b5]
      simp only [hfind, List.filterMap_cons]
      cases w.res.find? (fun r => r.id == i) <;> simp

theorem filterMap_hosts (c : Res → Bool) (rs : List Res) (hu : ∀ a ∈ rs, ∀ b ∈ rs, a.id = b.id → a = b) : ∀ l : List Res, (∀ r ∈ l, r ∈ rs) →
    ((l.filter c).map Res.id).filterMap (fun i => (rs.find? (fun r => r.id == i)).map (fun r => report r.host)) = (l.filter c).map (fun r => report r.host) := by
  intro l
  induction l with
  | nil => intro _; rfl
  | cons r l ih =>
    intro hl
    have hr' := hl r List.mem_cons_self
    have ih' := ih (fun x hx => hl x (List.mem_cons_of_mem _ hx))
    rw [List.filter_cons]
    by_cases hc : c r = true
    · rw [if_pos hc, List.map_cons, List.filterMap_cons, List.map_cons, ih']
      cases h : rs.find? (fun x => x.id == r.id) with
      | none =>
        rw [List.find?_eq_none] at h
        exact absurd (by simp) (h r hr')
      | some x =>
        have h1 := List.find?_some h
        simp only [beq_iff_eq] at h1
        rw [hu x (List.mem_of_find?_eq_some h) r hr' h1]
        rfl
    · rw [if_neg hc, ih']

/-- The machines that have left, in the order of the table. -/
def goneOf (desk : Desk) (w : RDB) (now : Int) : List Res := w.res.filter (fun r => isExpired desk now r)

theorem mem_goneOf (desk : Desk) (w : RDB) (now : Int) (r : Res) : r ∈ goneOf desk w now ↔ r ∈ w.res ∧ Gone desk now r := by
  unfold goneOf
  rw [List.mem_filter, isExpired_iff]

theorem mem_expired (desk : Desk) (w : RDB) (now : Int) (hu : ∀ a ∈ w.res, ∀ b ∈ w.res, a.id = b.id → a = b) (r : Res) (hr : r ∈ w.res) :
    r.id ∈ expired desk w now ↔ Gone desk now r := by
  unfold expired
  rw [List.mem_map]
  constructor
  · rintro ⟨x, hx, e⟩
    obtain ⟨h1, h2⟩ := List.mem_filter.1 hx
    rw [← hu x h1 r hr e]
    exact (isExpired_iff ..).1 h2
  · intro h
    exact ⟨r, List.mem_filter.2 ⟨hr, (isExpired_iff ..).2 h⟩, rfl⟩

theorem last_long {w : RDB} (now timeout : Int) (r : Res) :
    ((w.logOf r.id "state").getLast?.any (fun l => decide (l.start + timeout < now)) = true) ↔ Long w now timeout r := by
  unfold Long
  cases (w.logOf r.id "state").getLast? <;> simp

/-- The sweep is one more moment of a history of the resources. -/
theorem suspect_history {t : Int} (now : Int) (hle : t ≤ now) : ∀ (l : List Nat) (w : RDB), RHistory false t w →
    ∃ t', t' ≤ now ∧ RHistory false t' (l.foldl suspectOne w) := by
  intro l
  induction l generalizing t with
  | nil => intro w h; exact ⟨t, hle, h⟩
  | cons i l ih =>
    intro w h
    rw [List.foldl_cons]
    have h1 := RHistory.step t now _ _ h hle (.next i "Suspected")
    refine ih (t := now) (Int.le_refl _) _ ?_
    unfold suspectOne
    dsimp only
    split
    · exact RHistory.step now now _ _ h1 (Int.le_refl _) (.jobs _ _ _)
    · exact h1

theorem sarkoDead_db (w : RDB) (now timeout : Int) : (sarkoDead w now timeout).db = w.db ∧ (sarkoDead w now timeout).rlog = w.rlog := by
  unfold sarkoDead
  split
  · generalize longStates w now timeout = l
    induction l generalizing w with
    | nil => exact ⟨rfl, rfl⟩
    | cons i l ih => rw [List.foldl_cons]; exact ih _
  · exact ⟨rfl, rfl⟩

/-- C127. The sweep, on the tables of any history: the machines that have left are asked to be Suspected, the resources in the same state for too long are asked to be Dead (these ones whatever the rest), nothing else changes in the table of the resources. -/
theorem sweep_exact {t : Int} {w : RDB} (h : RHistory false t w) (desk : Desk) (now now' timeout : Int) (h1 : t ≤ now) :
    ((sweep desk w now now' timeout).1.res.length = w.res.length) ∧
    ∀ (k : Nat) (r : Res), w.res[k]? = some r → ∃ r', (sweep desk w now now' timeout).1.res[k]? = some r' ∧
      (0 < timeout ∧ Long w now' timeout r → r' = { r with next := "Dead", nextFinaud := true }) ∧
      (¬ (0 < timeout ∧ Long w now' timeout r) → Gone desk now r → r' = { r with next := "Suspected", nextFinaud := false }) ∧
      (¬ (0 < timeout ∧ Long w now' timeout r) → ¬ Gone desk now r → r' = r) := by
  obtain ⟨a1, a2, -⟩ := suspect_fold (expired desk w now) w
  obtain ⟨t', _, hh⟩ := suspect_history now h1 (expired desk w now) w h
  obtain ⟨d1, d2⟩ := sarkoDead_exact_partial hh now' timeout
  have hu := h.ok.1.unique
  have hlen : (sweep desk w now now' timeout).1.res.length = w.res.length := by
    show (sarkoDead _ now' timeout).res.length = _
    by_cases ht : 0 < timeout
    · rw [d2 ht, a1]; simp
    · rw [d1 (by omega), a1]; simp
  refine ⟨hlen, fun k r hk => ?_⟩
  have hr : r ∈ w.res := List.mem_of_getElem? hk
  have hlog : ∀ i, ((expired desk w now).foldl suspectOne w).logOf i "state" = w.logOf i "state" := by
    intro i
    unfold RDB.logOf
    rw [a2]
  have hex := mem_expired desk w now hu r hr
  by_cases ht : 0 < timeout
  · have e : (sweep desk w now now' timeout).1.res[k]? = some (if (w.logOf r.id "state").getLast?.any (fun l => decide (l.start + timeout < now'))
        then (if r.id ∈ expired desk w now then r.toSuspected else r).toDead else (if r.id ∈ expired desk w now then r.toSuspected else r)) := by
      show (sarkoDead _ now' timeout).res[k]? = _
      rw [d2 ht, a1, List.map_map, List.getElem?_map, hk]
      simp only [Option.map_some, Function.comp, hlog]
      by_cases hx : r.id ∈ expired desk w now
      · simp only [hx, if_true]; rfl
      · simp only [hx, if_false]
    rw [e]
    refine ⟨_, rfl, ?_, ?_, ?_⟩
    · rintro ⟨_, hl⟩
      rw [if_pos ((last_long ..).2 hl)]
      split <;> rfl
    · intro hn hg
      rw [if_neg (fun hc => hn ⟨ht, (last_long ..).1 hc⟩), if_pos (hex.2 hg)]
      rfl
    · intro hn hg
      rw [if_neg (fun hc => hn ⟨ht, (last_long ..).1 hc⟩), if_neg (fun hc => hg (hex.1 hc))]
  · have e : (sweep desk w now now' timeout).1.res[k]? = some (if r.id ∈ expired desk w now then r.toSuspected else r) := by
      show (sarkoDead _ now' timeout).res[k]? = _
      rw [d1 (by omega), a1, List.getElem?_map, hk]
      rfl
    rw [e]
    refine ⟨_, rfl, fun hc => absurd hc.1 ht, fun _ hg => ?_, fun _ hg => ?_⟩
    · rw [if_pos (hex.2 hg)]; rfl
    · rw [if_neg (fun hc => hg (hex.1 hc))]

/-- C127. What the sweep writes elsewhere: one report, with its node, for each machine that has left, in the order of the table; the jobs, the assignments and the logs are not touched; the server gets one message if a machine has left, and one if a resource is asked to be Dead. -/
theorem sweep_reports {t : Int} {w : RDB} (h : RHistory false t w) (desk : Desk) (now now' timeout : Int) :
    (∃ gone : List Res, gone.Sublist w.res ∧ (∀ r, r ∈ gone ↔ r ∈ w.res ∧ Gone desk now r) ∧
      (sweep desk w now now' timeout).1.db = { w.db with events := w.db.events ++ gone.map (fun r => ⟨"LOG_SUSPECTED", 0, true, [r.host]⟩) }) ∧
    (sweep desk w now now' timeout).1.rlog = w.rlog ∧
    ∃ a b, (sweep desk w now now' timeout).2 = a + b ∧ ((a = 1 ∧ ∃ r ∈ w.res, Gone desk now r) ∨ (a = 0 ∧ ¬ ∃ r ∈ w.res, Gone desk now r)) ∧
      ((b = 1 ∧ 0 < timeout ∧ ∃ l ∈ w.rlog, l.attr = "state" ∧ l.stop = 0 ∧ l.start + timeout < now') ∨
        (b = 0 ∧ ¬ (0 < timeout ∧ ∃ l ∈ w.rlog, l.attr = "state" ∧ l.stop = 0 ∧ l.start + timeout < now'))) := by
  obtain ⟨a1, a2, a3, a4, a5⟩ := suspect_fold (expired desk w now) w
  obtain ⟨d1, d2⟩ := sarkoDead_db ((expired desk w now).foldl suspectOne w) now' timeout
  have hne : (expired desk w now).length > 0 ↔ ∃ r ∈ w.res, Gone desk now r := by
    unfold expired
    rw [List.length_map, gt_iff_lt, List.length_pos_iff_exists_mem]
    constructor
    · rintro ⟨r, hr⟩
      exact ⟨r, (mem_goneOf ..).1 hr⟩
    · rintro ⟨r, hr⟩
      exact ⟨r, (mem_goneOf ..).2 hr⟩
  refine ⟨⟨goneOf desk w now, List.filter_sublist, mem_goneOf desk w now, ?_⟩, d2.trans a2, ?_⟩
  · show (sarkoDead _ now' timeout).db = _
    rw [d1, a5]
    have e := filterMap_hosts (isExpired desk now) w.res h.ok.1.unique w.res (fun _ h => h)
    unfold expired
    rw [e]
    rfl
  · have hlong : longStates ((expired desk w now).foldl suspectOne w) now' timeout ≠ [] ↔ ∃ l ∈ w.rlog, l.attr = "state" ∧ l.stop = 0 ∧ l.start + timeout < now' := by
      unfold longStates
      rw [a2, Ne, List.map_eq_nil_iff, List.filter_eq_nil_iff]
      simp only [Bool.and_eq_true, beq_iff_eq, decide_eq_true_eq, and_assoc]
      constructor
      · intro hx
        exact Classical.byContradiction (fun hc => hx (fun a ha hb => hc ⟨a, ha, hb⟩))
      · rintro ⟨l, hl, hb⟩ hx
        exact hx l hl hb
    refine ⟨if (expired desk w now).length > 0 then 1 else 0, if timeout > 0 ∧ longStates ((expired desk w now).foldl suspectOne w) now' timeout ≠ [] then 1 else 0, rfl, ?_, ?_⟩
    · by_cases hg : ∃ r ∈ w.res, Gone desk now r
      · exact .inl ⟨by rw [if_pos (hne.2 hg)], hg⟩
      · exact .inr ⟨by rw [if_neg (fun hc => hg (hne.1 hc))], hg⟩
    · by_cases hg : 0 < timeout ∧ ∃ l ∈ w.rlog, l.attr = "state" ∧ l.stop = 0 ∧ l.start + timeout < now'
      · exact .inl ⟨by rw [if_pos ⟨hg.1, hlong.2 hg.2⟩], hg⟩
      · exact .inr ⟨by rw [if_neg (fun hc => hg ⟨hc.1, hlong.1 hc.2⟩)], hg⟩

/-- C127. Then the state is changed, and the departure is not reported again: after `changeAll`, a resource that has left and was not in its state for too long is Suspected, is asked nothing more, and is not among those that leave, at any date. -/
theorem gone_suspected {t : Int} {w : RDB} (h : RHistory false t w) (desk : Desk) (now now' timeout later : Int) (h1 : t ≤ now) (h2 : now ≤ now') (k : Nat) (r : Res)
    (hk : w.res[k]? = some r) (hg : Gone desk now r) (hn : ¬ (0 < timeout ∧ Long w now' timeout r)) :
    ∃ r', (changeAll later (sweep desk w now now' timeout).1).res[k]? = some r' ∧
      r' = { r with state := "Suspected", finaud := false, next := "UnChanged", nextFinaud := false } ∧ ∀ d, ¬ Gone desk d r' := by
  obtain ⟨r1, e1, _, e2, _⟩ := (sweep_exact h desk now now' timeout h1).2 k r hk
  have hr1 := e2 hn hg
  obtain ⟨t', ht', hh⟩ := suspect_history now h1 (expired desk w now) w h
  have hh2 : RHistory false now' (sweep desk w now now' timeout).1 := RHistory.step t' now' _ _ hh (by omega) (.sarko timeout)
  refine ⟨_, ?_, rfl, ?_⟩
  · rw [changeAll_states hh2 later, List.getElem?_map, e1, hr1]
    simp only [Option.map_some]
    rw [if_neg (by decide), if_neg]
    rw [hg.1]; decide
  · rintro d ⟨hs, _⟩
    exact absurd (show "Suspected" = "Alive" from hs) (by decide)

/-- The machine leaves at the date 50. -/
def exDesk : Desk := fun i => if i = 1 then some 50 else none

/-- Two machines that have been Alive since the date 10. -/
def exDeskDb : RDB :=
  addRes (addRes ⟨[], [], exNoJobs, [], []⟩ 10 1 "pc1" "Alive") 10 2 "pc2" "Alive"

theorem exDesk_history : RHistory false 10 exDeskDb := by
  have h0 : RHistory false 10 ⟨[], [], exNoJobs, [], []⟩ := .start 10 (by decide) _ _ _
  have h1 := RHistory.step 10 10 _ _ h0 (by decide) (.add 1 "pc1" "Alive" (by simp) (by simp))
  exact RHistory.step 10 10 _ _ h1 (by decide) (.add 2 "pc2" "Alive" (by decide) (by decide))

/-- The hypotheses are met, at the boundary too: at the date 50 it has not left, at the date 51 it has. -/
theorem exDesk_sweep : ((sweep exDesk exDeskDb 51 51 300).1.res.map (fun r => (r.id, r.next)) = [(1, "Suspected"), (2, "UnChanged")]) ∧
    (sweep exDesk exDeskDb 51 51 300).2 = 1 ∧ ((sweep exDesk exDeskDb 51 51 300).1.db.events.map (fun e => (e.type, e.hosts)) = [("LOG_SUSPECTED", ["pc1"])]) ∧
    (sweep exDesk exDeskDb 50 50 300).1.res.map Res.next = ["UnChanged", "UnChanged"] ∧ (sweep exDesk exDeskDb 50 50 300).2 = 0 := by decide

/-- Refuted: a machine that leaves after having been Alive for longer than DEAD_SWITCH_TIME is reported Suspected but becomes Dead. -/
theorem gone_violated : ∃ (w : RDB) (desk : Desk) (r : Res), RHistory false 10 w ∧ w.res[0]? = some r ∧ Gone desk 400 r ∧
    (sweep desk w 400 400 300).1.db.events = w.db.events ++ [report r.host] ∧
    (changeAll 401 (sweep desk w 400 400 300).1).res[0]?.map Res.state = some "Dead" :=
  ⟨exDeskDb, exDesk, { id := 1, host := "pc1", state := "Alive" }, exDesk_history, rfl, ⟨rfl, 50, rfl, by decide, by decide⟩, by decide, by decide⟩

/-- Refuted: the departure is reported once. It is reported at each sweep until the states are changed. -/
theorem once_violated : ∃ (w : RDB) (desk : Desk), RHistory false 10 w ∧
    (sweep desk (sweep desk w 51 51 300).1 81 81 300).1.db.events = w.db.events ++ [report "pc1", report "pc1"] ∧ (sweep desk (sweep desk w 51 51 300).1 81 81 300).2 = 1 :=
  ⟨exDeskDb, exDesk, exDesk_history, by decide, by decide⟩

end Oar.Res
