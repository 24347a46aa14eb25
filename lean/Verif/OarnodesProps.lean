import Verif.OarnodesSpec

/-!
# C94: what oarnodes shows
-/

namespace Oar.Oarnodes

open Oar.Oarnodes.Spec

/-! ## The nodes -/

theorem eraseDups_nodup {α : Type} [BEq α] [LawfulBEq α] : ∀ (n : Nat) (l : List α), l.length ≤ n → l.eraseDups.Nodup := by
  intro n
  induction n with
  | zero =>
    intro l h
    have : l = [] := List.length_eq_zero_iff.1 (by omega)
    subst this
    simp [List.Nodup]
  | succ n ih =>
    intro l h
    cases l with
    | nil => simp [List.Nodup]
    | cons a l =>
      rw [List.eraseDups_cons]
      refine List.nodup_cons.2 ⟨?_, ih _ ?_⟩
      · rw [List.mem_eraseDups]
        simp
      · have := List.length_filter_le (fun b => !b == a) l
        simp only [List.length_cons] at h
        omega

/-- **`-l`** lists the nodes of the resources, each once, whatever the other arguments. -/
theorem list_exact (db : DB) (o : Opts) (h : o.list = true) (he : o.events = none) (hs : o.summary = false) (ht : o.state = false) :
    ∃ l, oarnodes db o = (.hosts l, 0) ∧ l.Nodup ∧ ∀ n, n ∈ l ↔ ∃ r ∈ db.resources, r.host = n := by
  refine ⟨allHosts db, ?_, ?_, ?_⟩
  · unfold oarnodes nodesOf
    simp [h, he, hs, ht]
  · exact eraseDups_nodup _ _ (Nat.le_refl _)
  · intro n
    simp [allHosts]

theorem mem_grouped (db : DB) (hosts : List String) (g : String × List Res) :
    g ∈ grouped db hosts ↔ g.1 ∈ hosts ∧ g.2 = onNode db g.1 ∧ g.2 ≠ [] := by
  unfold grouped onNode
  simp only [List.mem_map, List.mem_eraseDups, List.mem_filter, List.contains_eq_mem, decide_eq_true_eq]
  constructor
  · rintro ⟨h, ⟨⟨r, hr, rfl⟩, hh⟩, rfl⟩
    refine ⟨hh, by simp [beq_eq_decide], ?_⟩
    intro hn
    dsimp only at hn
    have : r ∈ db.resources.filter (fun x => x.host == r.host) := by simp [hr]
    rw [hn] at this
    cases this
  · rintro ⟨hh, h2, h3⟩
    obtain ⟨r, hr⟩ := List.exists_mem_of_ne_nil _ h3
    have hr' : r ∈ db.resources ∧ r.host = g.1 := by
      rw [h2] at hr; simpa using hr
    refine ⟨g.1, ⟨⟨r, hr'.1, hr'.2⟩, hh⟩, ?_⟩
    rw [Prod.ext_iff]
    refine ⟨rfl, ?_⟩
    rw [h2]
    simp [beq_eq_decide]

theorem grouped_nodup (db : DB) (hosts : List String) : ((grouped db hosts).map (·.1)).Nodup := by
  unfold grouped
  rw [List.map_map]
  have : ((fun x : String × List Res => x.1) ∘ fun h => (h, db.resources.filter (fun r => r.host == h))) = id := rfl
  rw [this, List.map_id]
  exact eraseDups_nodup _ _ (Nat.le_refl _)

/-! ## The tables -/

/-- The table of a list of resources. -/
theorem table_line (props : List String) (r : Res) : (line props r).1 = r.id ∧ (line props r).2.1 = r.host ∧ (line props r).2.2.1 = r.state ∧ (line props r).2.2.2.1 = r.upto ∧
    (line props r).2.2.2.2.length = props.length ∧ ∀ (i : Nat) (p : String), props[i]? = some p → (line props r).2.2.2.2[i]? = some (match r.props.lookup p with | some (some v) => v | _ => "") := by
  refine ⟨rfl, rfl, rfl, rfl, by simp [line], ?_⟩
  intro i p h
  simp only [line, List.getElem?_map, h, Option.map_some]
  cases r.props.lookup p with
  | none => rfl
  | some v => cases v <;> rfl

/-- **The columns.** The columns shown are the columns of the table of resources which were asked (all of them with `-P`), in the order of this table, but the internal ones. -/
theorem columns_exact (db : DB) (asked : List String) (all : Bool) (c : String) :
    (c ∈ shownProps db asked all ↔ c ∈ db.columns ∧ system c = false ∧ (c ∈ asked ∨ all = true)) ∧ (shownProps db asked all).Sublist db.columns := by
  unfold shownProps
  split
  · refine ⟨?_, List.filter_sublist⟩
    simp
  · rename_i h
    refine ⟨?_, List.nil_sublist _⟩
    simp only [ne_eq, not_or, Classical.not_not, Bool.not_eq_true] at h
    simp [h.1, h.2]

/-- **Nodes named.** With only names of nodes, the resources shown are those of these nodes, in the order of their ids, with the asked properties. -/
theorem nodes_exact (db : DB) (nodes props : List String) (all : Bool) (h : nodes ≠ []) :
    oarnodes db { nodes := nodes, props := props, allProps := all } =
      (.table (shownProps db props all) ((db.resources.filter (fun r => decide (r.host ∈ nodes))).map (line (shownProps db props all))), 0) := by
  unfold oarnodes nodesOf idsOf infos ofNodes
  simp [h]

/-- **No argument.** Every resource is shown, when there is one. -/
theorem all_exact (db : DB) (props : List String) (all : Bool) (h : db.resources ≠ []) :
    oarnodes db { props := props, allProps := all } = (.table (shownProps db props all) (db.resources.map (line (shownProps db props all))), 0) := by
  have hn : allHosts db ≠ [] := by
    obtain ⟨r, hr⟩ := List.exists_mem_of_ne_nil _ h
    intro hh
    have : r.host ∈ allHosts db := by simp only [allHosts, List.mem_eraseDups, List.mem_map]; exact ⟨r, hr, rfl⟩
    rw [hh] at this; cases this
  have hf : ofNodes db (allHosts db) = db.resources := by
    unfold ofNodes
    rw [List.filter_eq_self]
    intro r hr
    simp only [allHosts, List.contains_eq_mem, decide_eq_true_eq, List.mem_eraseDups, List.mem_map]
    exact ⟨r, hr, rfl⟩
  unfold oarnodes nodesOf idsOf infos
  simp [hn, hf]

/-- Every id is the one of a single resource. -/
def Keyed (db : DB) : Prop := db.resources.Pairwise (fun a b => a.id ≠ b.id)

theorem keyed_inj {db : DB} (hk : Keyed db) {a b : Res} (ha : a ∈ db.resources) (hb : b ∈ db.resources) (e : a.id = b.id) : a = b := by
  unfold Keyed at hk
  generalize db.resources = l at *
  induction l with
  | nil => cases ha
  | cons x l ih =>
    have hk' : (∀ y ∈ l, x.id ≠ y.id) ∧ l.Pairwise (fun a b => a.id ≠ b.id) := List.pairwise_cons.1 hk
    rcases List.mem_cons.1 ha with ha | ha
    · rcases List.mem_cons.1 hb with hb | hb
      · rw [ha, hb]
      · exact absurd (ha ▸ e) (hk'.1 b hb)
    · rcases List.mem_cons.1 hb with hb | hb
      · exact absurd (hb ▸ e).symm (hk'.1 a ha)
      · exact ih hk'.2 ha hb

theorem mem_ids_iff (db : DB) (hk : Keyed db) (ids : List Nat) (c : Res → Bool) (r : Res) (hr : r ∈ db.resources) :
    r.id ∈ ids ++ (db.resources.filter c).map (·.id) ↔ r.id ∈ ids ∨ c r = true := by
  rw [List.mem_append]
  constructor
  · rintro (h | h)
    · exact Or.inl h
    · obtain ⟨r', hr', e⟩ := List.mem_map.1 h
      have := List.mem_filter.1 hr'
      have he : r' = r := keyed_inj hk this.1 hr e
      exact Or.inr (he ▸ this.2)
  · rintro (h | h)
    · exact Or.inl h
    · exact Or.inr (List.mem_map.2 ⟨r, List.mem_filter.2 ⟨hr, h⟩, rfl⟩)

/-- **Resources and condition.** With ids (`-r`) or a condition (`--sql`), the resources shown are those which have one of the ids or satisfy the condition, in the order of their ids. -/
theorem resources_exact (db : DB) (hk : Keyed db) (ids : List Nat) (c : Res → Bool) (props : List String) (all : Bool) :
    oarnodes db { ids := ids, sql := some c, props := props, allProps := all } =
      (.table (shownProps db props all) ((db.resources.filter (fun r => decide (r.id ∈ ids ∨ c r = true))).map (line (shownProps db props all))), 0) := by
  have hf : ofIds db (ids ++ (db.resources.filter c).map (·.id)) = db.resources.filter (fun r => decide (r.id ∈ ids ∨ c r = true)) := by
    unfold ofIds
    apply List.filter_congr
    intro r hr
    rw [Bool.eq_iff_iff, List.contains_eq_mem, decide_eq_true_eq, decide_eq_true_eq]
    exact mem_ids_iff db hk ids c r hr
  unfold oarnodes idsOf infos
  simp [hf]

/-- The same with ids only. -/
theorem ids_exact (db : DB) (ids : List Nat) (h : ids ≠ []) (props : List String) (all : Bool) :
    oarnodes db { ids := ids, props := props, allProps := all } =
      (.table (shownProps db props all) ((db.resources.filter (fun r => decide (r.id ∈ ids))).map (line (shownProps db props all))), 0) := by
  unfold oarnodes idsOf infos ofIds
  simp [h]

/-! ## The states -/

theorem standby_shown (now : Int) (r : Res) : Shown now r (standby now r) := by
  unfold Shown standby
  by_cases h : r.state = "Absent" ∧ r.upto ≥ now
  · rw [if_pos h]; exact Or.inl ⟨h.1, h.2, rfl⟩
  · rw [if_neg h]; exact Or.inr ⟨fun hh => h ⟨hh.1, hh.2⟩, rfl⟩

theorem shown_unique {now : Int} {r : Res} {s t : String} (hs : Shown now r s) (ht : Shown now r t) : s = t := by
  unfold Shown at hs ht
  rcases hs with ⟨a, b, c⟩ | ⟨a, c⟩ <;> rcases ht with ⟨a', b', c'⟩ | ⟨a', c'⟩
  · rw [c, c']
  · exact absurd ⟨a, b⟩ a'
  · exact absurd ⟨a', b'⟩ a
  · rw [c, c']

/-- **`-s` with resources**: the state of each of the resources asked, standby told apart. -/
theorem states_exact (db : DB) (ids : List Nat) (h : ids ≠ []) (format : Bool) :
    ∃ l, oarnodes db { ids := ids, state := true, format := format } = (.states l, 0) ∧ l.map (·.1) = (db.resources.filter (fun r => decide (r.id ∈ ids))).map (·.id) ∧
      ∀ r ∈ db.resources, r.id ∈ ids → ∃ s, (r.id, s) ∈ l ∧ Shown db.now r s := by
  refine ⟨states db ids, ?_, ?_, ?_⟩
  · unfold oarnodes idsOf
    simp [h]
  · unfold states ofIds
    rw [List.map_map]
    simp [Function.comp_def]
  · intro r hr hi
    refine ⟨standby db.now r, ?_, standby_shown _ _⟩
    unfold states ofIds
    rw [List.mem_map]
    exact ⟨r, by simp [hr, hi], rfl⟩

/-- **`-s` in JSON or YAML**: for each node named, the state of each of its resources, standby told apart. -/
theorem host_states_exact (db : DB) (hk : Keyed db) (nodes : List String) (h : nodes ≠ []) :
    ∃ l, oarnodes db { nodes := nodes, state := true, format := true } = (.hostStates l, 0) ∧ l.map (·.1) = nodes ∧
      ∀ n s, (n, s) ∈ l → s.map (·.1) = (onNode db n).map (·.id) ∧ ∀ r ∈ onNode db n, ∃ t, (r.id, t) ∈ s ∧ Shown db.now r t := by
  refine ⟨nodes.map (fun h => (h, statesOfHost db h)), ?_, ?_, ?_⟩
  · unfold oarnodes idsOf nodesOf
    simp [h]
  · rw [List.map_map]
    show nodes.map (fun h => h) = nodes
    simp
  · intro n s hm
    obtain ⟨n', hn', e⟩ := List.mem_map.1 hm
    have e1 : n' = n := congrArg Prod.fst e
    have e2 : statesOfHost db n' = s := congrArg Prod.snd e
    subst e1
    have key : ofIds db ((db.resources.filter (fun r => r.host == n')).map (·.id)) = onNode db n' := by
      unfold ofIds onNode
      apply List.filter_congr
      intro r hr
      rw [Bool.eq_iff_iff, List.contains_eq_mem, decide_eq_true_eq, decide_eq_true_eq, List.mem_map]
      constructor
      · rintro ⟨r', hr', e⟩
        have := List.mem_filter.1 hr'
        have he : r' = r := keyed_inj hk this.1 hr e
        rw [← he]
        simpa using this.2
      · intro hh
        exact ⟨r, List.mem_filter.2 ⟨hr, by simpa using hh⟩, rfl⟩
    rw [← e2]
    unfold statesOfHost states
    rw [key]
    refine ⟨by rw [List.map_map]; rfl, ?_⟩
    intro r hr
    exact ⟨_, List.mem_map.2 ⟨r, hr, rfl⟩, standby_shown _ _⟩

/-! ## The summary -/

theorem jobsOf_iff (db : DB) (r : Nat) (j : Nat) : j ∈ jobsOf db r ↔ ∃ s l, (j, s, l) ∈ db.jobs ∧ s = "Running" ∧ r ∈ l := by
  unfold jobsOf
  simp only [List.mem_map, List.mem_filter, Bool.and_eq_true, beq_iff_eq, List.contains_eq_mem, decide_eq_true_eq]
  constructor
  · rintro ⟨⟨j', s, l⟩, ⟨h, hs, hl⟩, rfl⟩
    exact ⟨s, l, h, hs, hl⟩
  · rintro ⟨s, l, h, hs, hl⟩
    exact ⟨(j, s, l), ⟨h, hs, hl⟩, rfl⟩

theorem count3 (f g : Res → Bool) (l : List Res) : (l.length : Int) - (l.filter (fun r => !f r)).length - (l.filter (fun r => f r && g r)).length = (l.filter (fun r => f r && !g r)).length := by
  induction l with
  | nil => rfl
  | cons x l ih =>
    cases hf : f x <;> cases hg : g x <;> simp [hf, hg] at ih ⊢ <;> omega

/-- The free resources counted by the summary: alive, and without a running job. -/
theorem row_free (db : DB) (g : String × List Res) (r : Row) (h : row db g = some r) :
    r.free = (g.2.filter (fun x => (jobsOf db x.id).isEmpty && !(x.state != "Alive"))).length ∧ r.node = g.1 ∧ r.total = g.2.length ∧
      (∃ x xs, g.2 = x :: xs ∧ r.status = standby db.now x) ∧ r.jobs = (g.2.flatMap (fun r => jobsOf db r.id)).eraseDups := by
  unfold row at h
  split at h
  · cases h
  · rename_i x xs hx
    dsimp only at h
    injection h with h
    subst h
    refine ⟨?_, rfl, rfl, ⟨x, xs, hx, rfl⟩, rfl⟩
    rw [count3 (fun r => (jobsOf db r.id).isEmpty) (fun r => r.state != "Alive")]

/-- **The summary.** There is one line for each node named (with a name and a resource). Its total is the number of its resources, its jobs are the running jobs which have one of them, each
once. When the jobs which use resources are all running, the number of free resources is right; when the resources of the node are in the same state, the status is this state. -/
theorem summary_partial (db : DB) (nodes : List String) (h : nodes ≠ []) :
    ∃ l, oarnodes db { nodes := nodes, summary := true } = (.summary l, 0) ∧ (l.map (·.node)).Nodup ∧
      (∀ n, n ∈ l.map (·.node) ↔ n ∈ nodes ∧ n ≠ "" ∧ onNode db n ≠ []) ∧
      ∀ r ∈ l, r.total = (onNode db r.node).length ∧ r.jobs.Nodup ∧
        (∀ j, j ∈ r.jobs ↔ ∃ x ∈ onNode db r.node, ∃ ids, (j, "Running", ids) ∈ db.jobs ∧ x.id ∈ ids) ∧
        ((∀ j ∈ db.jobs, Uses j.2.1 → j.2.1 = "Running") → r.free = ((onNode db r.node).filter (fun x => decide (Free db x))).length) ∧
        ∀ s, (∀ x ∈ onNode db r.node, Shown db.now x s) → r.status = s := by
  refine ⟨summary db nodes, ?_, ?_⟩
  · unfold oarnodes nodesOf
    simp [h]
  have hrow : ∀ g ∈ (grouped db nodes).filter (fun g => g.1 != ""), ∃ r, row db g = some r ∧ r.node = g.1 := by
    intro g hg
    have h3 := ((mem_grouped db nodes g).1 (List.mem_filter.1 hg).1).2.2
    unfold row
    split
    · rename_i he; exact absurd he h3
    · exact ⟨_, rfl, rfl⟩
  have hnodes : (summary db nodes).map (·.node) = ((grouped db nodes).filter (fun g => g.1 != "")).map (·.1) := by
    unfold summary
    generalize (grouped db nodes).filter (fun g => g.1 != "") = l at hrow
    induction l with
    | nil => rfl
    | cons g l ih =>
      obtain ⟨r, hr, e⟩ := hrow g (List.mem_cons_self ..)
      rw [List.filterMap_cons, hr]
      show r.node :: _ = _
      rw [ih (fun x hx => hrow x (List.mem_cons_of_mem _ hx)), e]
      rfl
  refine ⟨?_, ?_, ?_⟩
  · rw [hnodes]
    exact List.Nodup.sublist (List.Sublist.map _ List.filter_sublist) (grouped_nodup db nodes)
  · intro n
    rw [hnodes, List.mem_map]
    constructor
    · rintro ⟨g, hg, rfl⟩
      obtain ⟨hg, hne⟩ := List.mem_filter.1 hg
      obtain ⟨a, b, c⟩ := (mem_grouped db nodes g).1 hg
      exact ⟨a, by simpa using hne, b ▸ c⟩
    · rintro ⟨a, b, c⟩
      exact ⟨(n, onNode db n), List.mem_filter.2 ⟨(mem_grouped db nodes _).2 ⟨a, rfl, c⟩, by simpa using b⟩, rfl⟩
  · intro r hr
    unfold summary at hr
    obtain ⟨g, hg, hgr⟩ := List.mem_filterMap.1 hr
    obtain ⟨a, b, c⟩ := (mem_grouped db nodes g).1 (List.mem_filter.1 hg).1
    obtain ⟨f1, f2, f3, ⟨x, xs, f4, f5⟩, f6⟩ := row_free db g r hgr
    have hb : g.2 = onNode db r.node := by rw [f2]; exact b
    rw [hb] at f1 f3 f4 f6
    refine ⟨f3, ?_, ?_, ?_, ?_⟩
    · rw [f6]; exact eraseDups_nodup _ _ (Nat.le_refl _)
    · intro j
      rw [f6, List.mem_eraseDups, List.mem_flatMap]
      constructor
      · rintro ⟨y, hy, hj⟩
        obtain ⟨s, l, hm, rfl, hl⟩ := (jobsOf_iff db y.id j).1 hj
        exact ⟨y, hy, l, hm, hl⟩
      · rintro ⟨y, hy, l, hm, hl⟩
        exact ⟨y, hy, (jobsOf_iff db y.id j).2 ⟨_, l, hm, rfl, hl⟩⟩
    · intro hall
      rw [f1]
      have : (onNode db r.node).filter (fun x => (jobsOf db x.id).isEmpty && !(x.state != "Alive")) = (onNode db r.node).filter (fun x => decide (Free db x)) := by
        apply List.filter_congr
        intro y _
        rw [Bool.eq_iff_iff, decide_eq_true_eq]
        simp only [Bool.and_eq_true, List.isEmpty_iff, Bool.not_eq_true', bne_eq_false_iff_eq]
        unfold Free Used
        constructor
        · rintro ⟨hj, hs⟩
          refine ⟨hs, ?_⟩
          rintro ⟨j, hj1, hj2, hj3⟩
          have : j.1 ∈ jobsOf db y.id := (jobsOf_iff db y.id j.1).2 ⟨j.2.1, j.2.2, hj1, hall j hj1 hj2, hj3⟩
          rw [hj] at this; cases this
        · rintro ⟨hs, hu⟩
          refine ⟨?_, hs⟩
          rw [List.eq_nil_iff_forall_not_mem]
          intro j hj
          obtain ⟨s, l, hm, rfl, hl⟩ := (jobsOf_iff db y.id j).1 hj
          exact hu ⟨_, hm, show Uses "Running" by decide, hl⟩
      rw [this]
    · intro s hs
      rw [f5]
      exact shown_unique (standby_shown _ _) (hs x (by rw [f4]; simp))

/-- A node with a running job on one of its two resources. -/
def db2 : DB := ⟨[⟨1, "n1", "Alive", 0, []⟩, ⟨2, "n1", "Alive", 0, []⟩, ⟨4, "n2", "Absent", 90, []⟩], [(7, "Running", [1]), (8, "Waiting", [])], [], ["resource_id"], 50⟩

/-- The hypotheses of the last parts are met. -/
example : (∀ j ∈ db2.jobs, Uses j.2.1 → j.2.1 = "Running") ∧ Keyed db2 ∧ summary db2 ["n1", "n2"] = [⟨"n1", "Alive", [7], 1, 2⟩, ⟨"n2", "Standby", [], 0, 1⟩] := by
  unfold Keyed
  refine ⟨by decide, by decide, by decide⟩

/-! ## The events -/

/-- **Events since a date**: for each node, the events of this node since this date, all of them, the last one first. -/
theorem events_since_exact (db : DB) (nodes : List String) (h : nodes ≠ []) (d : Int) :
    ∃ l, oarnodes db { nodes := nodes, events := some (some d) } = (.events l, 0) ∧ l.map (·.1) = nodes ∧
      ∀ n es, (n, es) ∈ l → es.Pairwise (fun a b => b.date ≤ a.date) ∧ es.Perm (db.events.filter (fun e => decide (n ∈ e.hosts ∧ d ≤ e.date))) := by
  refine ⟨nodes.map (fun h => (h, eventsOf db h (some d))), ?_, ?_, ?_⟩
  · unfold oarnodes nodesOf
    simp [h]
  · rw [List.map_map]
    show nodes.map (fun h => h) = nodes
    simp
  · intro n es hm
    obtain ⟨n', hn', e⟩ := List.mem_map.1 hm
    have e1 : n' = n := congrArg Prod.fst e
    have e2 : eventsOf db n' (some d) = es := congrArg Prod.snd e
    subst e1
    rw [← e2]
    unfold eventsOf byDate
    refine ⟨?_, ?_⟩
    · have := List.pairwise_mergeSort (le := fun a b : Ev => decide (b.date ≤ a.date)) (by intro a b c; simp; omega) (by intro a b; simp; omega)
        (db.events.filter (fun e => e.hosts.contains n' && decide (e.date ≥ d)))
      exact this.imp (by intro a b hab; simpa using hab)
    · refine (List.mergeSort_perm _ _).trans ?_
      have : db.events.filter (fun e => e.hosts.contains n' && decide (e.date ≥ d)) = db.events.filter (fun e => decide (n' ∈ e.hosts ∧ d ≤ e.date)) := by
        apply List.filter_congr
        intro e _
        simp
      rw [this]

/-- **The last events**: without a date, at most 30 events of the node, the last one first, and no event left out is more recent than one shown. -/
theorem events_last_exact (db : DB) (nodes : List String) (h : nodes ≠ []) :
    ∃ l, oarnodes db { nodes := nodes, events := some none } = (.events l, 0) ∧ l.map (·.1) = nodes ∧
      ∀ n es, (n, es) ∈ l → es.length = min 30 (db.events.filter (fun e => decide (n ∈ e.hosts))).length ∧ es.Pairwise (fun a b => b.date ≤ a.date) ∧
        ∃ out, (es ++ out).Perm (db.events.filter (fun e => decide (n ∈ e.hosts))) ∧ ∀ a ∈ es, ∀ b ∈ out, b.date ≤ a.date := by
  refine ⟨nodes.map (fun h => (h, eventsOf db h none)), ?_, ?_, ?_⟩
  · unfold oarnodes nodesOf
    simp [h]
  · rw [List.map_map]
    show nodes.map (fun h => h) = nodes
    simp
  · intro n es hm
    obtain ⟨n', hn', e⟩ := List.mem_map.1 hm
    have e1 : n' = n := congrArg Prod.fst e
    have e2 : eventsOf db n' none = es := congrArg Prod.snd e
    subst e1
    rw [← e2]
    have ef : db.events.filter (fun e => e.hosts.contains n') = db.events.filter (fun e => decide (n' ∈ e.hosts)) := by
      apply List.filter_congr
      intro e _
      simp
    have hs : (byDate (db.events.filter (fun e => e.hosts.contains n'))).Pairwise (fun a b => b.date ≤ a.date) := by
      have := List.pairwise_mergeSort (le := fun a b : Ev => decide (b.date ≤ a.date)) (by intro a b c; simp; omega) (by intro a b; simp; omega)
        (db.events.filter (fun e => e.hosts.contains n'))
      exact this.imp (by intro a b hab; simpa using hab)
    have hp : (byDate (db.events.filter (fun e => e.hosts.contains n'))).Perm (db.events.filter (fun e => decide (n' ∈ e.hosts))) := by
      rw [← ef]
      exact List.mergeSort_perm _ _
    unfold eventsOf
    dsimp only
    generalize byDate (db.events.filter (fun e => e.hosts.contains n')) = l at *
    refine ⟨?_, hs.sublist (List.take_sublist _ _), l.drop 30, by rw [List.take_append_drop]; exact hp, ?_⟩
    · rw [List.length_take, hp.length_eq]
    · have := hs
      rw [← List.take_append_drop 30 l, List.pairwise_append] at this
      exact this.2.2

/-! ## Violations -/

/-- A node of two resources, the second in another state, a job being launched on the first; a licence without a node. -/
def db1 : DB := ⟨[⟨1, "n1", "Alive", 0, [("cpu", some "1")]⟩, ⟨2, "n1", "Absent", 100, [("cpu", some "2")]⟩, ⟨3, "", "Alive", 0, []⟩],
  [(7, "Launching", [1])], [⟨1, 5, ["n1"]⟩], ["resource_id", "cpu"], 50⟩

/-- **The resources of a job being launched are shown as free**, and the status of the node is the one of its first resource, though the second is in standby. -/
theorem free_violated : summary db1 ["n1"] = [⟨"n1", "Alive", [], 1, 2⟩] ∧ Used db1 ⟨1, "n1", "Alive", 0, [("cpu", some "1")]⟩ ∧
    ¬ Shown 50 ⟨2, "n1", "Absent", 100, [("cpu", some "2")]⟩ "Alive" := by
  refine ⟨by decide, by decide, ?_⟩
  unfold Shown
  decide

/-- **`-s` as a text does not tell standby apart**, though it does in JSON. -/
theorem details_violated : oarnodes db1 { nodes := ["n1"], state := true } = (.details [("n1", [(1, "Alive"), (2, "Absent")])], 0) ∧
    oarnodes db1 { nodes := ["n1"], state := true, format := true } = (.hostStates [("n1", [(1, "Alive"), (2, "Standby")])], 0) := ⟨rfl, rfl⟩

/-- **An unknown node is no error.** Whatever the names of nodes without resource, the answer is an empty table and the exit status 0, though 1 is documented. -/
theorem unknown_violated (db : DB) (nodes : List String) (h : nodes ≠ []) (hu : ∀ n ∈ nodes, onNode db n = []) :
    oarnodes db { nodes := nodes } = (.table [] [], 0) := by
  rw [nodes_exact db nodes [] false h]
  have : db.resources.filter (fun r => decide (r.host ∈ nodes)) = [] := by
    rw [List.filter_eq_nil_iff]
    intro r hr hh
    have hm := of_decide_eq_true hh
    have := hu _ hm
    have hin : r ∈ onNode db r.host := by simp [onNode, hr]
    rw [this] at hin; cases hin
  rw [this]
  rfl

example : oarnodes db1 { nodes := ["n2"] } = (.table [] [], 0) := unknown_violated db1 ["n2"] (by simp) (by decide)

/-- **Nodes and ids together**: the nodes are ignored without a word. -/
theorem nodes_ignored_violated (db : DB) (nodes : List String) (ids : List Nat) (h : ids ≠ []) : oarnodes db { nodes := nodes, ids := ids } = oarnodes db { ids := ids } := by
  unfold oarnodes idsOf infos nodesOf
  simp [h]

/-- **A condition with `-S` or `-e`** and no node shows nothing. -/
theorem condition_ignored_violated (db : DB) (c : Res → Bool) (d : Option Int) : oarnodes db { sql := some c, summary := true } = (.summary [], 0) ∧
    oarnodes db { sql := some c, events := some d } = (.events [], 0) := by
  unfold oarnodes nodesOf summary grouped
  simp

/-- **An unknown property is ignored.** -/
theorem property_violated (db : DB) (p : String) (h : p ∉ db.columns) (n : List String) (hn : n ≠ []) :
    oarnodes db { nodes := n, props := [p] } = oarnodes db { nodes := n } := by
  rw [nodes_exact db n [p] false hn, nodes_exact db n [] false hn]
  have : shownProps db [p] false = [] := by
    rw [List.eq_nil_iff_forall_not_mem]
    intro c hc
    have := (columns_exact db [p] false c).1.1 hc
    rcases this.2.2 with h1 | h1
    · rw [List.mem_singleton] at h1; subst h1; exact h this.1
    · cases h1
  rw [this]
  rfl

/-- **The internal columns** are never shown: those of the resource itself, of its coming state, of the jobs suspended on it and of the scheduler. -/
theorem internal_hidden (db : DB) (asked : List String) (all : Bool) : ∀ c ∈ ["resource_id", "state", "state_num", "next_state", "finaud_decision", "next_finaud_decision", "last_job_date",
    "suspended_jobs", "expiry_date", "scheduler_priority"], c ∉ shownProps db asked all := by
  intro c hc h
  have h1 := ((columns_exact db asked all c).1.1 h).2.1
  have h2 : system c = true := by simpa [system] using hc
  rw [h1] at h2; cases h2

/-- **The warning** is given exactly when there is a condition which no resource satisfies. -/
theorem warning_exact (db : DB) (o : Opts) : warns db o = true ↔ ∃ c, o.sql = some c ∧ ∀ r ∈ db.resources, c r = false := by
  unfold warns
  cases o.sql with
  | none => simp
  | some c => simp [List.isEmpty_iff]

example : warns db1 { sql := some (fun r => r.host == "n9") } = true := by decide +kernel

end Oar.Oarnodes
