import Verif.DetailsProps

/-!
# What the API tells about jobs, exactly
-/

namespace Oar.Details

open Oar.Tools

/-! ## The columns -/

theorem attachExit_eq (cols : List String) (j : Job) (k : String) : attachExit (asdict cols j) k =
    if k = "exit_status_code" then some (if "exit_code" ∈ cols then optVal (fun n : Nat => .num n) (Oarstat.exitStatus j.exit) else .null) else asdict cols j k := by
  have hv : j.value "exit_code" = optVal (fun n : Nat => .num n) j.exit := by
    unfold Job.value
    rw [if_neg (by decide), if_neg (by decide), if_pos rfl]
  have ha : asdict cols j "exit_code" = if "exit_code" ∈ cols then some (optVal (fun n : Nat => .num n) j.exit) else none := by
    unfold asdict
    rw [hv]
  unfold attachExit
  by_cases hc : "exit_code" ∈ cols
  · rw [if_pos hc] at ha
    rw [ha, if_pos hc]
    cases he : j.exit with
    | none => rfl
    | some c => simp only [optVal, put, Int.toNat_natCast]
  · rw [if_neg hc] at ha
    rw [ha, if_neg hc]
    rfl

theorem macroOf_get (k k' : String) (id : Nat) (d : Dict) : macroOf k id d k' =
    if k' = k then (match d k with | some (.text t) => some (.text (replaceId (digits id) t.length t)) | x => x) else d k' := by
  by_cases e : k' = k
  · subst e
    rw [if_pos rfl]
    unfold macroOf
    match h : d k' with
    | some (.text t) => exact if_pos rfl
    | none => exact h
    | some .null => exact h
    | some (.num _) => exact h
    | some (.ids _) => exact h
    | some (.nodes _) => exact h
    | some (.events _) => exact h
    | some (.types _) => exact h
  · rw [if_neg e]
    unfold macroOf
    match d k with
    | some (.text t) => exact if_neg e
    | none => rfl
    | some .null => rfl
    | some (.num _) => rfl
    | some (.ids _) => rfl
    | some (.nodes _) => rfl
    | some (.events _) => rfl
    | some (.types _) => rfl

/-- The dictionary before the details. -/
def base (cols : List String) (j : Job) : Dict := macros j.id (attachExit (asdict cols j))

theorem base_other {cols : List String} {j : Job} {k : String} (h1 : k ≠ "stdout_file") (h2 : k ≠ "stderr_file") : base cols j k = attachExit (asdict cols j) k := by
  unfold base macros
  rw [macroOf_get, if_neg h1, macroOf_get, if_neg h2]

theorem base_out {cols : List String} {j : Job} (h : "stdout_file" ∈ cols) : base cols j "stdout_file" = some (optVal (fun t => .text (replaceId (digits j.id) t.length t)) j.out) := by
  have hv : j.value "stdout_file" = optVal .text j.out := by
    unfold Job.value
    rw [if_neg (by decide), if_neg (by decide), if_neg (by decide), if_pos rfl]
  unfold base macros
  rw [macroOf_get, if_pos rfl, macroOf_get, if_neg (by decide), attachExit_eq, if_neg (by decide)]
  unfold asdict
  rw [if_pos h, hv]
  cases j.out <;> rfl

theorem base_err {cols : List String} {j : Job} (h : "stderr_file" ∈ cols) : base cols j "stderr_file" = some (optVal (fun t => .text (replaceId (digits j.id) t.length t)) j.err) := by
  have hv : j.value "stderr_file" = optVal .text j.err := by
    unfold Job.value
    rw [if_neg (by decide), if_neg (by decide), if_neg (by decide), if_neg (by decide), if_pos rfl]
  unfold base macros
  rw [macroOf_get, if_neg (by decide), macroOf_get, if_pos rfl, attachExit_eq, if_neg (by decide)]
  unfold asdict
  rw [if_pos h, hv]
  cases j.err <;> rfl

/-- The columns are told when the dictionary agrees with the first one on them. -/
theorem tells_columns {cols : List String} {j : Job} {d : Dict} (hs : "exit_status_code" ∉ cols)
    (h : ∀ k, k ∈ cols ∨ k = "exit_status_code" → d k = base cols j k) : TellsColumns cols j (removeNull d) := by
  have hn : ∀ {α : Type} (f : α → Val), (∀ a, f a ≠ .null) → ∀ o : Option α, (if some (optVal f o) = some .null then none else some (optVal f o)) = o.map f := by
    intro α f hf o
    cases o with
    | none => rfl
    | some a =>
      show (if some (f a) = some .null then none else some (f a)) = _
      rw [if_neg (fun e => hf a (Option.some.inj e))]
      rfl
  refine ⟨?_, ?_, ?_, ?_⟩
  · intro k hk h1 h2
    unfold removeNull
    rw [h k (.inl hk), base_other h1 h2, attachExit_eq, if_neg (fun e : k = "exit_status_code" => hs (e ▸ hk))]
    unfold asdict
    rw [if_pos hk]
    by_cases e : j.value k = .null
    · rw [e, if_pos rfl, if_pos rfl]
    · rw [if_neg (fun e' => e (Option.some.inj e')), if_neg e]
  · intro hk
    unfold removeNull
    rw [h _ (.inl hk), base_out hk]
    exact hn _ (fun _ => by simp) _
  · intro hk
    unfold removeNull
    rw [h _ (.inl hk), base_err hk]
    exact hn _ (fun _ => by simp) _
  · intro hk
    unfold removeNull
    rw [h _ (.inr rfl), base_other (by decide) (by decide), attachExit_eq, if_pos rfl, if_pos hk]
    exact hn _ (fun _ => by simp) _

/-! ## The details -/

def detailKeys : List String := ["resources", "nodes", "events", "walltime", "types", "actual_resources"]

theorem attachAll_get {t : Tables} {id : Nat} {d : Dict} {rs : List Res} {es : List Event} {q : List Oarstat.Level} (hr : t.resources id = some rs) (he : t.events id = some es)
    (hq : t.requests id = some q) : ∃ d', attachAll t id d = some d' ∧ d' "resources" = some (.ids (rs.map Res.id)) ∧ d' "nodes" = some (.nodes (distinct (rs.map Res.address) [])) ∧
      d' "events" = some (.events es) ∧ d' "walltime" = ((t.walltimes id).map Val.num).or (d "walltime") ∧ d' "types" = ((t.types id).map Val.types).or (d "types") ∧
      d' "actual_resources" = some (.text (Oarstat.format q)) ∧ ∀ k, k ∉ detailKeys → d' k = d k := by
  unfold attachAll
  rw [hr, he, hq]
  refine ⟨_, rfl, ?_⟩
  have hk : ∀ k, k ∉ detailKeys → k ≠ "resources" ∧ k ≠ "nodes" ∧ k ≠ "events" ∧ k ≠ "walltime" ∧ k ≠ "types" ∧ k ≠ "actual_resources" := by
    intro k h
    simpa [detailKeys] using h
  cases t.walltimes id <;> cases t.types id <;> refine ⟨rfl, rfl, rfl, ?_, ?_, rfl, ?_⟩ <;> first | rfl | skip
  all_goals
    intro k h
    obtain ⟨h1, h2, h3, h4, h5, h6⟩ := hk k h
    simp only [put, h1, h2, h3, h4, h5, h6, if_false]

variable {db : Db} {le : T → T → Bool} {page : List Nat} {f : Found} {j : Job}

theorem resOf_ids (h : db.Ok) (j : Job) : (resOf db j).map Res.id = db.assignedTo j := by
  have h1 : ∀ (l : List Res) (n : Nat), (l.map Res.id).Nodup → (l.filter (fun r => r.id == n)).map Res.id = if n ∈ l.map Res.id then [n] else [] := by
    intro l n
    induction l with
    | nil => intro _; rfl
    | cons r l ih =>
      intro hn
      rw [List.map_cons, List.nodup_cons] at hn
      rw [List.filter_cons]
      by_cases e : r.id = n
      · subst e
        rw [if_pos (by simp), List.map_cons, ih hn.2, if_neg hn.1, if_pos (by simp)]
      · rw [if_neg (by simpa using e), ih hn.2]
        by_cases m : n ∈ l.map Res.id
        · rw [if_pos m, if_pos (by rw [List.map_cons]; exact List.mem_cons_of_mem _ m)]
        · rw [if_neg m, if_neg (by
            rw [List.map_cons, List.mem_cons, not_or]
            exact ⟨fun e' => e e'.symm, m⟩)]
  unfold resOf Db.assignedTo
  rw [List.map_flatMap]
  simp only [h1 _ _ h.resources]
  generalize db.resources.map Res.id = ids
  induction db.assigned with
  | nil => rfl
  | cons a l ih =>
    rw [List.filter_cons, List.filter_cons]
    by_cases e : j.mold = some a.1
    · rw [if_pos (by simp [e]), List.flatMap_cons, ih]
      by_cases m : a.2 ∈ ids
      · rw [if_pos m, if_pos (by simp [e, m]), List.map_cons]
        rfl
      · rw [if_neg m, if_neg (by simp [m])]
        rfl
    · rw [if_neg (by simpa using e), if_neg (by simp [e]), ih]

theorem resOf_mem {r : Res} (hr : r ∈ resOf db j) : r ∈ db.resources := by
  obtain ⟨a, _, h⟩ := List.mem_flatMap.1 hr
  exact (List.mem_filter.1 h).1

theorem own_perm {α : Type} {rows : List (Nat × α)} {g : Job → List α} (h : db.Ok) (hj : j ∈ db.jobs) (hp : j.id ∈ page)
    (hr : rows.Perm ((db.among page).flatMap (fun j => (g j).map (fun x => (j.id, x))))) : ((rows.filter (fun r => r.1 == j.id)).map Prod.snd).Perm (g j) := by
  have h1 := own_rows g j (db.among page) (among_nodup h) (mem_among hj hp)
  rw [← h1]
  exact (hr.filter _).map _

/-- The tables of the details of a page. -/
theorem tables_eq (a : Answer db le page f) : tables page f = some
    ⟨fun i => if i ∈ page then some ((f.resources.filter (fun r => r.1 == i)).map Prod.snd) else none,
     fun i => if i ∈ page then some ((f.events.filter (fun r => r.1 == i)).map Prod.snd) else none,
     lastOf f.walltimes (fun _ => none), lastOf ((runs f.types).map (fun g => (g.1, parseTypes g.2))) (fun _ => none),
     fun i => if i ∈ page then some ((f.requests.filter (fun r => r.1 == i)).map Prod.snd) else none⟩ := by
  unfold tables
  rw [groups_eq f.resources (fun r hr => by
    have := a.resources.mem_iff.1 hr
    rw [resourceRows_eq] at this
    exact rows_mem this)]
  rw [groups_eq f.events (fun r hr => by
    have := a.events.mem_iff.1 hr
    unfold eventRows at this
    exact rows_mem this)]
  rw [groups_eq f.requests (fun r hr => by
    have := a.requests.mem_iff.1 hr
    unfold requestRows at this
    exact rows_mem this)]
  rfl

theorem types_get (a : Answer db le page f) (hp : j.id ∈ page) :
    (db.typesOf j = [] → lastOf ((runs f.types).map (fun g => (g.1, parseTypes g.2))) (fun _ => none) j.id = none) ∧
    (db.typesOf j ≠ [] → ∃ l, lastOf ((runs f.types).map (fun g => (g.1, parseTypes g.2))) (fun _ => none) j.id = some (parseTypes l) ∧ l.Perm (db.typesOf j)) := by
  have hown : ((f.types.filter (fun r => r.1 == j.id)).map Prod.snd).Perm (db.typesOf j) := by
    refine ((a.types.filter _).map _).trans (List.Perm.of_eq ?_)
    unfold typeRows Db.typesOf
    rw [List.filter_filter]
    congr 1
    apply List.filter_congr
    intro x _
    by_cases e : x.1 = j.id
    · simp [e, hp]
    · simp [e]
  have hl : lastOf ((runs f.types).map (fun g => (g.1, parseTypes g.2))) (fun _ => none) j.id =
      if f.types.filter (fun r => r.1 == j.id) = [] then none else some (parseTypes ((f.types.filter (fun r => r.1 == j.id)).map Prod.snd)) := by
    rw [lastOf_eq, List.filter_map]
    have : ((fun r : Nat × List (T × TypeVal) => r.1 == j.id) ∘ fun g : Nat × List T => (g.1, parseTypes g.2)) = fun g => g.1 == j.id := rfl
    rw [this, runs_sorted j.id f.types a.typesSorted]
    split <;> rfl
  constructor
  · intro e
    rw [e] at hown
    have := List.map_eq_nil_iff.1 hown.eq_nil
    rw [hl, if_pos this]
  · intro e
    refine ⟨_, ?_, hown⟩
    rw [hl, if_neg]
    intro e'
    rw [e'] at hown
    exact e hown.symm.eq_nil

theorem walltime_get (h : db.Ok) (a : Answer db le page f) (hj : j ∈ db.jobs) (hp : j.id ∈ page) (w : Int) :
    lastOf f.walltimes (fun _ => none) j.id = some w ↔ ∃ m ∈ db.molds, j.mold = some m.1 ∧ w = m.2 := by
  have hw := a.walltimes
  rw [walltimeRows_eq] at hw
  have hown := own_perm h hj hp hw
  have hone : (db.molds.filter (fun m => j.mold == some m.1)).length ≤ 1 := by
    cases hm : j.mold with
    | none =>
      have : db.molds.filter (fun m => none == some m.1) = [] := by simp
      rw [this]
      simp
    | some n =>
      have : (db.molds.filter (fun m => some n == some m.1)) = db.molds.filter (fun m => m.1 == n) := by
        apply List.filter_congr
        intro x _
        by_cases e : x.1 = n
        · simp [e]
        · rw [beq_eq_false_iff_ne.2 (fun h : some n = some x.1 => e (Option.some.inj h).symm), beq_eq_false_iff_ne.2 e]
      rw [this]
      have hk := h.molds
      generalize db.molds = ms at hk ⊢
      induction ms with
      | nil => simp
      | cons x l ih =>
        rw [List.map_cons, List.nodup_cons] at hk
        rw [List.filter_cons]
        split
        · rename_i e
          have e : x.1 = n := by simpa using e
          have : l.filter (fun m => m.1 == n) = [] := by
            rw [List.filter_eq_nil_iff]
            intro y hy e'
            have e' : y.1 = n := by simpa using e'
            exact hk.1 (by rw [e, ← e']; exact List.mem_map_of_mem hy)
          rw [this]
          simp
        · exact ih hk.2
  rw [lastOf_eq, Option.or_none]
  have hlen : ((f.walltimes.filter (fun r => r.1 == j.id)).map Prod.snd).length ≤ 1 := by
    rw [hown.length_eq, List.length_map]
    exact hone
  have hmem : ∀ x, x ∈ (f.walltimes.filter (fun r => r.1 == j.id)).map Prod.snd ↔ ∃ m ∈ db.molds, j.mold = some m.1 ∧ x = m.2 := by
    intro x
    rw [hown.mem_iff, List.mem_map]
    constructor
    · rintro ⟨m, hm, rfl⟩
      obtain ⟨h1, h2⟩ := List.mem_filter.1 hm
      exact ⟨m, h1, by simpa using h2, rfl⟩
    · rintro ⟨m, h1, h2, rfl⟩
      exact ⟨m, List.mem_filter.2 ⟨h1, by simpa using h2⟩, rfl⟩
  rw [← hmem]
  clear hmem hown hw
  generalize (f.walltimes.filter (fun r => r.1 == j.id)).map Prod.snd = ws at hlen ⊢
  match ws, hlen with
  | [], _ => simp
  | _ :: _ :: _, h => simp at h
  | [x], _ =>
    simp only [List.getLast?_singleton, Option.some.injEq, List.mem_singleton]
    exact eq_comm

/-- The details of an item are those of the job. -/
theorem item_tells (h : db.Ok) (a : Answer db le page f) (hj : j ∈ db.jobs) (hp : j.id ∈ page) {t : Tables} (ht : tables page f = some t) :
    ∃ d, item columns (some t) j = some d ∧ TellsColumns columns j d ∧ TellsDetails db le j d := by
  rw [tables_eq a] at ht
  injection ht with ht
  subst ht
  have hr' := a.resources
  rw [resourceRows_eq] at hr'
  have hr := own_perm h hj hp hr'
  have he : ((f.events.filter (fun r => r.1 == j.id)).map Prod.snd).Perm (db.events.filter (fun e => j.id == e.job)) := own_perm h hj hp (g := fun j => db.events.filter (fun e => j.id == e.job)) a.events
  have hq : ((f.requests.filter (fun r => r.1 == j.id)).map Prod.snd).Perm (levelsOf db j) := own_perm h hj hp (g := levelsOf db) a.requests
  obtain ⟨d, hd, h1, h2, h3, h4, h5, h6, h7⟩ := attachAll_get (t := ⟨fun i => if i ∈ page then some ((f.resources.filter (fun r => r.1 == i)).map Prod.snd) else none,
     fun i => if i ∈ page then some ((f.events.filter (fun r => r.1 == i)).map Prod.snd) else none,
     lastOf f.walltimes (fun _ => none), lastOf ((runs f.types).map (fun g => (g.1, parseTypes g.2))) (fun _ => none),
     fun i => if i ∈ page then some ((f.requests.filter (fun r => r.1 == i)).map Prod.snd) else none⟩) (id := j.id) (d := base columns j)
     (if_pos hp) (if_pos hp) (if_pos hp)
  have hbn : ∀ k, k ∈ detailKeys → base columns j k = none := by
    intro k hk
    simp only [detailKeys, List.mem_cons, List.not_mem_nil, or_false] at hk
    have hx : k ≠ "stdout_file" ∧ k ≠ "stderr_file" ∧ k ≠ "exit_status_code" ∧ k ∉ columns := by rcases hk with rfl | rfl | rfl | rfl | rfl | rfl <;> decide
    rw [base_other hx.1 hx.2.1, attachExit_eq, if_neg hx.2.2.1]
    unfold asdict
    rw [if_neg hx.2.2.2]
  refine ⟨removeNull d, ?_, tells_columns (by decide) ?_, ?_⟩
  · show (attachAll _ j.id (base columns j)).map removeNull = _
    rw [hd]
    rfl
  · intro k hk
    apply h7
    intro hk'
    simp only [detailKeys, List.mem_cons, List.not_mem_nil, or_false] at hk'
    rcases hk' with rfl | rfl | rfl | rfl | rfl | rfl <;> revert hk <;> decide
  · have hnn : ∀ k v, d k = some v → v ≠ .null → removeNull d k = some v := by
      intro k v hk hv
      unfold removeNull
      rw [hk, if_neg (fun e => hv (Option.some.inj e))]
    have hno : ∀ k, d k = none → removeNull d k = none := by
      intro k hk
      unfold removeNull
      rw [hk, if_neg (by simp)]
    refine ⟨⟨_, hnn _ _ h1 (by simp), ?_⟩, ⟨_, hnn _ _ h2 (by simp), ?_⟩, ⟨_, hnn _ _ h3 (by simp), ?_⟩, ?_, ?_, ?_, ⟨_, hnn _ _ h6 (by simp), hq, ?_⟩⟩
    · rw [← resOf_ids h]
      exact hr.map _
    · obtain ⟨n1, n2⟩ := distinct_spec (((f.resources.filter (fun r => r.1 == j.id)).map Prod.snd).map Res.address) [] List.nodup_nil
      refine ⟨n1, fun x => ?_⟩
      rw [n2, (hr.map Res.address).mem_iff, List.mem_map, ← resOf_ids h]
      constructor
      · rintro (⟨r, hm, rfl⟩ | hm)
        · exact ⟨r, resOf_mem hm, rfl, List.mem_map_of_mem hm⟩
        · simp at hm
      · rintro ⟨r, hm, rfl, hi⟩
        obtain ⟨r', hm', e⟩ := List.mem_map.1 hi
        have : r' = r := by
          have hn := h.resources
          have h1 := resOf_mem hm'
          generalize db.resources = rs at hn hm h1
          induction rs with
          | nil => simp at hm
          | cons y l ih =>
            rw [List.map_cons, List.nodup_cons] at hn
            rcases List.mem_cons.1 hm with rfl | m1 <;> rcases List.mem_cons.1 h1 with rfl | m2
            · rfl
            · exact absurd (e ▸ List.mem_map_of_mem m2) hn.1
            · exact absurd (e ▸ List.mem_map_of_mem m1) hn.1
            · exact ih hn.2 m1 m2
        exact .inl ⟨r', hm', by rw [this]⟩
    · refine he.trans (List.Perm.of_eq ?_)
      apply List.filter_congr
      intro x _
      by_cases e : x.job = j.id
      · simp [e]
      · rw [beq_eq_false_iff_ne.2 (fun h : j.id = x.job => e h.symm), decide_eq_false e]
    · intro w
      rw [hbn _ (by decide), Option.or_none] at h4
      have hw := walltime_get h a hj hp
      constructor
      · intro e
        change d "walltime" = (lastOf f.walltimes (fun _ => none) j.id).map Val.num at h4
        cases hl : lastOf f.walltimes (fun _ => none) j.id with
        | none =>
          rw [hl] at h4
          rw [hno _ h4] at e
          simp at e
        | some x =>
          rw [hl] at h4
          rw [hnn _ _ h4 (by simp)] at e
          obtain ⟨m, h1, h2, h3⟩ := (hw x).1 hl
          exact ⟨m, h1, h2, by rw [← Option.some.inj e, h3]⟩
      · rintro ⟨m, h1, h2, rfl⟩
        apply hnn _ _ _ (by simp)
        rw [h4]
        dsimp only
        rw [(hw m.2).2 ⟨m, h1, h2, rfl⟩]
        rfl
    · intro e
      rw [hbn _ (by decide), Option.or_none] at h5
      apply hno
      rw [h5]
      dsimp only
      rw [(types_get a hp).1 e]
      rfl
    · intro e
      rw [hbn _ (by decide), Option.or_none] at h5
      obtain ⟨l, h1, h2⟩ := (types_get a hp).2 e
      refine ⟨l, hnn _ _ ?_ (by simp), h2⟩
      rw [h5]
      dsimp only
      rw [h1]
      rfl
    · rw [List.pairwise_map]
      exact (a.requestsSorted.sublist List.filter_sublist)

end Oar.Details
