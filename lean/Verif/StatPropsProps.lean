import Verif.StatProps
import Mathlib.Data.List.Nodup
import Mathlib.Data.List.Sort

/-!
# C124 : the properties shown by `oarstat --properties`
-/

namespace Oar.StatProps

/-! ## Specification -/

/-- The resource is assigned to the job. -/
def Holds (db : Db) (jid : Nat) (r : RRow) : Prop := ∃ j ∈ db.jobs, j.id = jid ∧ (j.mold, r.id) ∈ db.assigned

/-- `ds` are the properties of the resources of the job: of each of them, once, by increasing identifiers, without those of the system. -/
structure Describes (db : Db) (jid : Nat) (ds : List (List (String × Option String))) (rs : List RRow) : Prop where
  all : ∀ r, r ∈ rs ↔ r ∈ db.res ∧ Holds db jid r
  once : rs.Nodup
  sorted : rs.Pairwise (fun a b => a.id ≤ b.id)
  number : ds.length = rs.length
  values : ∀ n (h : n < rs.length) (h' : n < ds.length) k v, (k, v) ∈ ds[n] ↔ (k, v) ∈ rs[n].attrs ∧ k ∉
    ["resource_id", "state", "state_num", "next_state", "finaud_decision", "next_finaud_decision", "last_job_date", "suspended_jobs", "expiry_date",
      "scheduler_priority"]
  order : ∀ n (h : n < rs.length) (h' : n < ds.length), ds[n].Sublist rs[n].attrs

/-! ## The resources of a job -/

theorem mem_jobResources {db : Db} {jid : Nat} {r : RRow} : r ∈ jobResources db jid ↔ r ∈ db.res ∧ Holds db jid r := by
  unfold jobResources
  rw [List.mem_mergeSort, List.mem_filter, List.any_eq_true]
  unfold Holds
  constructor
  · rintro ⟨hr, j, hj, h⟩
    rw [Bool.and_eq_true, List.any_eq_true] at h
    obtain ⟨h1, a, ha, h2⟩ := h
    simp only [Bool.and_eq_true, beq_iff_eq] at h1 h2
    refine ⟨hr, j, hj, h1, ?_⟩
    rw [← h2.1, ← h2.2]
    exact ha
  · rintro ⟨hr, j, hj, h1, ha⟩
    refine ⟨hr, j, hj, ?_⟩
    rw [Bool.and_eq_true, List.any_eq_true]
    exact ⟨by simp [h1], _, ha, by simp⟩

theorem jobResources_nodup {db : Db} (h : (db.res.map RRow.id).Nodup) (jid : Nat) : (jobResources db jid).Nodup := by
  unfold jobResources
  rw [(List.mergeSort_perm _ _).nodup_iff]
  exact (List.Nodup.of_map _ h).filter _

theorem jobResources_sorted (db : Db) (jid : Nat) : (jobResources db jid).Pairwise (fun a b => a.id ≤ b.id) := by
  unfold jobResources
  have := List.pairwise_mergeSort (le := fun (a b : RRow) => decide (a.id ≤ b.id)) (by simp; omega) (by simp; omega)
    (db.res.filter (fun r => db.jobs.any (fun j => j.id == jid && db.assigned.any (fun a => a.1 == j.mold && a.2 == r.id))))
  exact this.imp (by simp)

/-! ## The dictionary -/

theorem push_end (k : Nat) (x : List (String × Option String)) (l : List (List (String × Option String))) :
    ∀ d : List (Nat × List (List (String × Option String))), k ∉ d.map Prod.fst → push k x (d ++ [(k, l)]) = d ++ [(k, l ++ [x])]
  | [], _ => by show (if k = k then _ else _) = _; rw [if_pos rfl]; rfl
  | (a, m) :: d, h => by
    rw [List.map_cons, List.mem_cons, not_or] at h
    show (if a = k then _ else _) = _
    rw [if_neg (fun e => h.1 e.symm)]
    show (a, m) :: push k x (d ++ [(k, l)]) = _
    rw [push_end k x l d h.2]
    rfl

theorem push_new (k : Nat) (x : List (String × Option String)) :
    ∀ d : List (Nat × List (List (String × Option String))), k ∉ d.map Prod.fst → push k x d = d ++ [(k, [x])]
  | [], _ => rfl
  | (a, m) :: d, h => by
    rw [List.map_cons, List.mem_cons, not_or] at h
    show (if a = k then _ else _) = _
    rw [if_neg (fun e => h.1 e.symm), push_new k x d h.2]
    rfl

theorem push_many (k : Nat) : ∀ (xs : List RRow) (l : List (List (String × Option String))) (d : List (Nat × List (List (String × Option String)))),
    k ∉ d.map Prod.fst → (xs.map (fun r => (r, k))).foldl (fun d p => push p.2 (shown p.1) d) (d ++ [(k, l)]) = d ++ [(k, l ++ xs.map shown)]
  | [], l, d, _ => by simp
  | r :: xs, l, d, h => by
    rw [List.map_cons, List.foldl_cons, push_end k _ l d h, push_many k xs _ d h, List.map_cons]
    simp

theorem gather_from (db : Db) : ∀ (jids : List Nat) (d : List (Nat × List (List (String × Option String)))), jids.Nodup → (∀ j ∈ jids, j ∉ d.map Prod.fst) →
    (jids.flatMap (fun j => (jobResources db j).map (fun r => (r, j)))).foldl (fun d p => push p.2 (shown p.1) d) d =
      d ++ (jids.filter (fun j => ! (jobResources db j).isEmpty)).map (fun j => (j, (jobResources db j).map shown))
  | [], d, _, _ => by simp
  | j :: jids, d, hn, hd => by
    obtain ⟨hj, hn⟩ := List.nodup_cons.1 hn
    rw [List.flatMap_cons, List.foldl_append, List.filter_cons]
    cases hr : jobResources db j with
    | nil =>
      rw [if_neg (by simp)]
      exact gather_from db jids d hn (fun k hk => hd k (List.mem_cons_of_mem _ hk))
    | cons r rs =>
      rw [if_pos (by simp), List.map_cons, List.foldl_cons, push_new j _ d (hd j List.mem_cons_self), push_many j rs _ d (hd j List.mem_cons_self),
        gather_from db jids _ hn ?_, List.map_cons, hr]
      · simp
      · intro k hk
        rw [List.map_append, List.mem_append, not_or]
        refine ⟨hd k (List.mem_cons_of_mem _ hk), ?_⟩
        simp only [List.map_cons, List.map_nil, List.mem_singleton]
        exact fun e => hj (e ▸ hk)

theorem gather_eq (db : Db) (jids : List Nat) (hn : jids.Nodup) :
    gather db jids = (jids.filter (fun j => ! (jobResources db j).isEmpty)).map (fun j => (j, (jobResources db j).map shown)) := by
  unfold gather
  rw [gather_from db jids [] hn (by simp)]
  rfl

theorem describes (db : Db) (h : (db.res.map RRow.id).Nodup) (jid : Nat) : Describes db jid ((jobResources db jid).map shown) (jobResources db jid) := by
  refine ⟨fun r => mem_jobResources, jobResources_nodup h jid, jobResources_sorted db jid, List.length_map _, ?_, ?_⟩
  · intro n h1 h2 k v
    rw [List.getElem_map]
    unfold shown
    rw [List.mem_filter, decide_eq_true_eq]
    rfl
  · intro n h1 h2
    rw [List.getElem_map]
    exact List.filter_sublist

/-! ## The command -/

theorem oarstatP_none (db : Db) (jids : List Nat) (hne : jids ≠ []) (fmt : Bool) :
    oarstatP db jids none fmt = if fmt then .dict (gather db jids) else .lines ((gather db jids).flatMap (fun e => e.2.map line)) := by
  unfold oarstatP
  simp [hne]

/-- **C124, partial.** With a format, for different jobs named by `-j`: the jobs shown are, in the order of the command line, those that have a
resource, each with the properties of its resources. Missing: a job named twice (`twice_violated`), a job that has no resource (`absent_violated`). -/
theorem dict_partial (db : Db) (h : (db.res.map RRow.id).Nodup) (jids : List Nat) (hne : jids ≠ []) (hn : jids.Nodup) :
    ∃ d, oarstatP db jids none true = .dict d ∧ (d.map Prod.fst).Sublist jids ∧
      (∀ j ∈ jids, j ∈ d.map Prod.fst ↔ ∃ r ∈ db.res, Holds db j r) ∧
      ∀ e ∈ d, ∃ rs, Describes db e.1 e.2 rs := by
  refine ⟨gather db jids, ?_, ?_, ?_, ?_⟩
  · rw [oarstatP_none db jids hne]
    rfl
  · rw [gather_eq db jids hn, List.map_map]
    show ((jids.filter _).map (fun j => j)).Sublist jids
    rw [List.map_id']
    exact List.filter_sublist
  · intro j hj
    rw [gather_eq db jids hn, List.map_map]
    show j ∈ (jids.filter _).map (fun j => j) ↔ _
    rw [List.map_id', List.mem_filter]
    constructor
    · rintro ⟨_, he⟩
      cases hr : jobResources db j with
      | nil => rw [hr] at he; simp at he
      | cons r rs =>
        have := mem_jobResources.1 (hr ▸ List.mem_cons_self : r ∈ jobResources db j)
        exact ⟨r, this.1, this.2⟩
    · rintro ⟨r, hr, hh⟩
      refine ⟨hj, ?_⟩
      have hm : r ∈ jobResources db j := mem_jobResources.2 ⟨hr, hh⟩
      cases hr : jobResources db j with
      | nil => rw [hr] at hm; simp at hm
      | cons r rs => rfl
  · intro e he
    rw [gather_eq db jids hn] at he
    obtain ⟨j, _, rfl⟩ := List.mem_map.1 he
    exact ⟨_, describes db h j⟩

/-- Without a format, the same properties are printed, one line for a resource; the jobs are not told. -/
theorem lines_partial (db : Db) (jids : List Nat) (hne : jids ≠ []) (d) (hd : oarstatP db jids none true = .dict d) :
    oarstatP db jids none false = .lines (d.flatMap (fun e => e.2.map (fun l => String.intercalate ", " (l.map (fun p => p.1 ++ " = '" ++ p.2.getD "None" ++ "'"))))) := by
  have h1 : oarstatP db jids none true = .dict (gather db jids) := by
    rw [oarstatP_none db jids hne]
    rfl
  rw [h1] at hd
  rw [← Shown.dict.inj hd]
  rw [oarstatP_none db jids hne]
  rfl

/-- "No job specified": exactly when there is neither a job of `-j` nor a job in the array asked. -/
theorem no_job (db : Db) (jids : List Nat) (array : Option Nat) (fmt : Bool) :
    oarstatP db jids array fmt = .noJob ↔ jids = [] ∧ ∀ a, array = some a → a ≠ 0 → ∀ j ∈ db.jobs, j.array ≠ a := by
  unfold oarstatP
  dsimp only
  have hlast : ∀ ids : List Nat, (if ids = [] then Shown.noJob else if fmt = true then .dict (gather db ids) else .lines ((gather db ids).flatMap (fun e => e.2.map line))) = .noJob ↔ ids = [] := by
    intro ids
    by_cases h : ids = []
    · simp [h]
    · cases fmt <;> simp [h]
  have hnil : ∀ a, (((db.jobs.filter (fun j => j.array == a)).map JRow.id).mergeSort (fun a b => decide (a ≤ b)) = []) ↔ ∀ j ∈ db.jobs, j.array ≠ a := by
    intro a
    rw [← List.length_eq_zero_iff, List.length_mergeSort, List.length_map, List.length_eq_zero_iff, List.filter_eq_nil_iff]
    simp
  cases array with
  | none =>
    simp only [Option.filter_none, Option.isSome_none, Bool.false_eq_true, and_false, if_false]
    rw [hlast]
    simp
  | some a =>
    by_cases ha : a = 0
    · subst ha
      have e : (some 0).filter (fun a : Nat => a != 0) = none := by decide
      rw [e]
      simp only [Option.isSome_none, Bool.false_eq_true, and_false, if_false]
      rw [hlast]
      constructor
      · exact fun h => ⟨h, fun a h1 h2 => absurd (Option.some.inj h1).symm h2⟩
      · exact fun h => h.1
    · have e : (some a).filter (fun a : Nat => a != 0) = some a := by simp [Option.filter, ha]
      rw [e]
      simp only [Option.isSome_some, and_true]
      by_cases hj : jids = []
      · rw [if_neg (fun h => h hj), hlast, hnil]
        constructor
        · intro h
          refine ⟨hj, fun b hb _ => ?_⟩
          rw [← Option.some.inj hb]
          exact h
        · exact fun h => h.2 a rfl ha
      · rw [if_pos hj]
        exact ⟨fun h => by simp at h, fun h => absurd h.1 hj⟩

/-- With `--array`, the jobs are those of the array, each once, by increasing identifiers; both options together are refused. -/
theorem array_exact (db : Db) (hk : (db.jobs.map JRow.id).Nodup) (a : Nat) (ha : a ≠ 0) (fmt : Bool) :
    (∃ ids, ids.Nodup ∧ ids.Pairwise (· ≤ ·) ∧ (∀ i, i ∈ ids ↔ ∃ j ∈ db.jobs, j.id = i ∧ j.array = a) ∧ oarstatP db [] (some a) fmt = oarstatP db ids none fmt) ∧
    ∀ jids, jids ≠ [] → oarstatP db jids (some a) fmt = .conflict := by
  have hf : (some a).filter (fun a => a != 0) = some a := by simp [Option.filter, ha]
  constructor
  · refine ⟨((db.jobs.filter (fun j => j.array == a)).map JRow.id).mergeSort (fun a b => decide (a ≤ b)), ?_, ?_, ?_, ?_⟩
    · rw [(List.mergeSort_perm _ _).nodup_iff]
      exact hk.sublist (List.filter_sublist.map _)
    · exact (List.pairwise_mergeSort (le := fun (a b : Nat) => decide (a ≤ b)) (by simp; omega) (by simp; omega) _).imp (by simp)
    · intro i
      rw [List.mem_mergeSort, List.mem_map]
      constructor
      · rintro ⟨j, hj, hi⟩
        obtain ⟨hj, he⟩ := List.mem_filter.1 hj
        exact ⟨j, hj, hi, by simpa using he⟩
      · rintro ⟨j, hj, hi, he⟩
        exact ⟨j, List.mem_filter.2 ⟨hj, by simpa using he⟩, hi⟩
    · unfold oarstatP
      rw [hf]
      simp
  · intro jids hne
    unfold oarstatP
    rw [hf]
    simp [hne]

/-! ## Where the property fails, examples -/

/-- Jobs 1 and 2 of array 1 hold resources 1, 2 and 1; job 3 waits. -/
def exDb : Db :=
  ⟨[⟨1, 11, 1⟩, ⟨2, 12, 1⟩, ⟨3, 0, 3⟩], [(11, 2), (11, 1), (12, 1)],
   [⟨1, [("id", some "1"), ("type", some "default"), ("state", some "Alive"), ("mem", some "8")]⟩,
    ⟨2, [("id", some "2"), ("type", some "default"), ("state", some "Dead"), ("mem", none)]⟩]⟩

theorem ex1 : jobResources exDb 1 = exDb.res := by
  have h : jobResources exDb 1 = exDb.res.mergeSort (fun a b => decide (a.id ≤ b.id)) := by
    unfold jobResources
    exact congrArg (fun l => List.mergeSort l _) (by decide +kernel)
  rw [h]
  exact List.mergeSort_of_pairwise (by decide +kernel)

theorem ex3 : jobResources exDb 3 = [] := by
  have h : jobResources exDb 3 = ([] : List RRow).mergeSort (fun a b => decide (a.id ≤ b.id)) := by
    unfold jobResources
    exact congrArg (fun l => List.mergeSort l _) (by decide +kernel)
  rw [h]
  exact List.mergeSort_nil

/-- A job named twice has each of its resources twice. -/
theorem twice_violated : ∃ l, oarstatP exDb [1] none true = .dict [(1, l)] ∧ oarstatP exDb [1, 1] none true = .dict [(1, l ++ l)] ∧ l.length = 2 := by
  refine ⟨exDb.res.map shown, ?_, ?_, by decide +kernel⟩
  · show Shown.dict (gather exDb [1]) = _
    unfold gather
    rw [List.flatMap_cons, List.flatMap_nil, ex1]
    decide +kernel
  · show Shown.dict (gather exDb [1, 1]) = _
    unfold gather
    rw [List.flatMap_cons, List.flatMap_cons, List.flatMap_nil, ex1]
    decide +kernel

/-- A job that has no resource, or that does not exist, is left out without any message. -/
theorem absent_violated : oarstatP exDb [3] none true = .dict [] ∧ oarstatP exDb [3] none false = .lines [] := by
  have h : gather exDb [3] = [] := by
    unfold gather
    rw [List.flatMap_cons, List.flatMap_nil, ex3]
    rfl
  constructor
  · show Shown.dict (gather exDb [3]) = _
    rw [h]
  · show Shown.lines ((gather exDb [3]).flatMap _) = _
    rw [h]
    rfl

/-- The identifier, which is the attribute `id` of the column `resource_id` of the system, is shown; the state is not. -/
theorem shown_example : oarstatP exDb [1] none false = .lines ["id = '1', type = 'default', mem = '8'", "id = '2', type = 'default', mem = 'None'"] := by
  show Shown.lines ((gather exDb [1]).flatMap _) = _
  unfold gather
  rw [List.flatMap_cons, List.flatMap_nil, ex1]
  decide +kernel

/-- A line does not tell the properties apart: two resources with different values have the same one; nor does it tell a null value from a text. -/
theorem ambiguous_violated : line [("a", some "1', b = '2"), ("b", some "3")] = line [("a", some "1"), ("b", some "2', b = '3")] ∧
    line [("a", none)] = line [("a", some "None")] := by decide +kernel

end Oar.StatProps
