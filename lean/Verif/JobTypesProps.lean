import Verif.JobTypes

/-!
# C42, C62: timesharing between two jobs, reading of the types of jobs
-/

namespace Oar.JobTypes

open Oar.Tools

/-! ## Specification -/

/-- Two jobs may share resources: both ask for timesharing, and either both accept anybody, or they have the same user
and name, or the same user and both are restricted to their user, or the same name and both are restricted to their name. -/
def Compatible (j1 j2 : TJob) : Prop :=
  ∃ t1 t2, j1.types.lookup (txt "timesharing") = some t1 ∧ j2.types.lookup (txt "timesharing") = some t2 ∧
    ((t1 = txt "*,*" ∧ t2 = txt "*,*") ∨ (j1.user = j2.user ∧ j1.name = j2.name) ∨
     (j1.user = j2.user ∧ t1 = txt "user,*" ∧ t2 = txt "user,*") ∨
     (j1.name = j2.name ∧ t1 = txt "*,name" ∧ t2 = txt "*,name"))

theorem compatible_symm (j1 j2 : TJob) : Compatible j1 j2 ↔ Compatible j2 j1 := by
  constructor <;>
  · rintro ⟨t1, t2, h1, h2, h⟩
    refine ⟨t2, t1, h2, h1, ?_⟩
    rcases h with ⟨a, b⟩ | ⟨a, b⟩ | ⟨a, b, c⟩ | ⟨a, b, c⟩
    · exact Or.inl ⟨b, a⟩
    · exact Or.inr (Or.inl ⟨a.symm, b.symm⟩)
    · exact Or.inr (Or.inr (Or.inl ⟨a.symm, c, b⟩))
    · exact Or.inr (Or.inr (Or.inr ⟨a.symm, c, b⟩))

/-- The shape of the test, before the typo: it accepts all the compatible pairs. -/
theorem timesharing_complete (j1 j2 : TJob) (h : Compatible j1 j2) : isTimesharing j1 j2 = true := by
  obtain ⟨t1, t2, h1, h2, h⟩ := h
  unfold isTimesharing
  rw [h1, h2]
  dsimp only
  rcases h with ⟨a, b⟩ | ⟨a, b⟩ | ⟨a, b, c⟩ | ⟨a, b, c⟩
  · rw [if_pos ⟨a, b⟩]
  · split
    · rfl
    · rw [if_pos ⟨a, b⟩]
  · split
    · rfl
    · split
      · rfl
      · rw [if_pos ⟨a, b, c⟩]
  · split
    · rfl
    · split
      · rfl
      · split
        · rfl
        · rw [if_pos ⟨a, b, b⟩]

/-- C42, partial: the answer is exact, and symmetric, except when the first job is restricted to its name, the second
one is not, and they have the same name. Missing: this case. -/
theorem timesharing_exact_partial (j1 j2 : TJob)
    (hx : ¬ (j1.name = j2.name ∧ j1.types.lookup (txt "timesharing") = some (txt "*,name") ∧
      j2.types.lookup (txt "timesharing") ≠ some (txt "*,name"))) :
    isTimesharing j1 j2 = true ↔ Compatible j1 j2 := by
  refine ⟨?_, timesharing_complete j1 j2⟩
  intro h
  unfold isTimesharing at h
  cases h1 : j1.types.lookup (txt "timesharing") with
  | none => rw [h1] at h; simp at h
  | some t1 =>
    cases h2 : j2.types.lookup (txt "timesharing") with
    | none => rw [h1, h2] at h; simp at h
    | some t2 =>
      rw [h1, h2] at h
      dsimp only at h
      refine ⟨t1, t2, h1, h2, ?_⟩
      split at h
      · rename_i c; exact Or.inl c
      · split at h
        · rename_i c; exact Or.inr (Or.inl c)
        · split at h
          · rename_i c; exact Or.inr (Or.inr (Or.inl c))
          · split at h
            · rename_i c
              refine Or.inr (Or.inr (Or.inr ⟨c.1, c.2.1, ?_⟩))
              apply Classical.byContradiction
              intro hn
              apply hx
              refine ⟨c.1, ?_, ?_⟩
              · rw [h1, c.2.1]
              · rw [h2]; exact fun e => hn (Option.some.inj e)
            · cases h

theorem timesharing_symm_partial (j1 j2 : TJob) (hn : j1.name ≠ j2.name) : isTimesharing j1 j2 = isTimesharing j2 j1 := by
  have e1 := timesharing_exact_partial j1 j2 (fun h => hn h.1)
  have e2 := timesharing_exact_partial j2 j1 (fun h => hn h.1.symm)
  have e3 := compatible_symm j1 j2
  cases h1 : isTimesharing j1 j2 <;> cases h2 : isTimesharing j2 j1
  · rfl
  · exact absurd (e1.2 (e3.2 (e2.1 h2))) (by rw [h1]; simp)
  · exact absurd (e2.2 (e3.1 (e1.1 h1))) (by rw [h2]; simp)
  · rfl

example : isTimesharing ⟨[(txt "timesharing", txt "user,*")], "bob", "a"⟩ ⟨[(txt "timesharing", txt "user,*")], "bob", "b"⟩ = true := by
  decide

/-- C42 (violated): the answer depends on the order of the jobs. A job restricted to its name is said to share with a
job of another user which is restricted to its own user. -/
theorem timesharing_symmetric_violated :
    ∃ j1 j2 : TJob, isTimesharing j1 j2 = true ∧ isTimesharing j2 j1 = false ∧ ¬ Compatible j1 j2 := by
  refine ⟨⟨[(txt "timesharing", txt "*,name")], "bob", "x"⟩, ⟨[(txt "timesharing", txt "user,*")], "eve", "x"⟩, by decide, by decide, ?_⟩
  rintro h
  rw [compatible_symm] at h
  have := timesharing_complete _ _ h
  revert this
  decide

/-! ## Reading the types -/

theorem lookup_dictSet {κ ν : Type} [DecidableEq κ] [BEq κ] [LawfulBEq κ] (k k' : κ) (v : ν) (d : List (κ × ν)) :
    (dictSet k v d).lookup k' = if k' = k then some v else d.lookup k' := by
  induction d with
  | nil =>
    by_cases h : k' = k
    · simp [dictSet, h]
    · have : (k' == k) = false := by simpa using h
      simp [dictSet, List.lookup, h, this]
  | cons p d ih =>
    obtain ⟨a, b⟩ := p
    unfold dictSet
    by_cases ha : a = k
    · subst ha
      by_cases h : k' = a
      · simp [h]
      · have : (k' == a) = false := by simpa using h
        simp [List.lookup, h, this]
    · rw [if_neg ha]
      by_cases h : k' = a
      · subst h
        simp [ha]
      · have : (k' == a) = false := by simpa using h
        simp only [List.lookup, this]
        exact ih

/-- The dictionary of types never gets a special type. -/
theorem addType_special (i i' : Info) (t : List Char) (h : addType i t = some i') (k : List Char)
    (hk : k = txt "timesharing" ∨ k = txt "placeholder" ∨ k = txt "allow" ∨ k = txt "no_quotas")
    (hi : i.types.lookup k = none) : i'.types.lookup k = none := by
  unfold addType at h
  dsimp only at h
  generalize split '=' t = tv at h
  by_cases c1 : tv.headD [] = txt "timesharing"
  · rw [if_pos c1] at h
    split at h
    · split at h
      · cases h; exact hi
      · cases h
    · cases h
  rw [if_neg c1] at h
  by_cases c2 : tv.headD [] = txt "placeholder"
  · rw [if_pos c2] at h
    split at h
    · cases h; exact hi
    · cases h
  rw [if_neg c2] at h
  by_cases c3 : tv.headD [] = txt "allow"
  · rw [if_pos c3] at h
    split at h
    · cases h; exact hi
    · cases h
  rw [if_neg c3] at h
  by_cases c4 : tv.headD [] = txt "assign"
  · rw [if_pos c4] at h; cases h; exact hi
  rw [if_neg c4] at h
  by_cases c5 : tv.headD [] = txt "find"
  · rw [if_pos c5] at h; cases h; exact hi
  rw [if_neg c5] at h
  by_cases c6 : tv.headD [] = txt "no_quotas"
  · rw [if_pos c6] at h; cases h; exact hi
  rw [if_neg c6] at h
  have hne : k ≠ tv.headD [] := by
    rintro rfl
    rcases hk with h | h | h | h
    · exact c1 h
    · exact c2 h
    · exact c3 h
    · exact c6 h
  split at h
  · cases h
    dsimp only
    rw [lookup_dictSet, if_neg hne]; exact hi
  · cases h
    dsimp only
    rw [lookup_dictSet, if_neg hne]; exact hi

theorem jobTypes_special (ts : List (List Char)) (i i' : Info) (h : jobTypes ts i = some i') (k : List Char)
    (hk : k = txt "timesharing" ∨ k = txt "placeholder" ∨ k = txt "allow" ∨ k = txt "no_quotas")
    (hi : i.types.lookup k = none) : i'.types.lookup k = none := by
  induction ts generalizing i with
  | nil => simp [jobTypes] at h; subst h; exact hi
  | cons t ts ih =>
    obtain ⟨i1, h1, h2⟩ := Option.bind_eq_some_iff.1 h
    exact ih i1 h2 (addType_special i i1 t h1 k hk hi)

/-- C42 (violated): with the types as the schedulers read them from the database, two jobs are never said to share,
whatever their types: the type `timesharing` is kept apart and the test looks for it among the others. -/
theorem timesharing_never_violated (ts1 : List (List Char)) (i1 i2 : Info) (h1 : jobTypes ts1 Info.empty = some i1)
    (u1 n1 u2 n2 : String) : isTimesharing ⟨i1.types, u1, n1⟩ ⟨i2.types, u2, n2⟩ = false := by
  have := jobTypes_special ts1 Info.empty i1 h1 (txt "timesharing") (Or.inl rfl) rfl
  unfold isTimesharing
  rw [this]

example : jobTypes [txt "timesharing=*,*"] Info.empty = some { Info.empty with ts := some (txt "*", txt "*") } := by decide

/-- A type that the readers accept: `timesharing=u,n`, `placeholder=x`, `allow=x` have their values. -/
def WellFormed (t : List Char) : Prop :=
  ((split '=' t).headD [] = txt "timesharing" → ∃ v, (split '=' t)[1]? = some v ∧ (split ',' v).length = 2) ∧
  ((split '=' t).headD [] = txt "placeholder" ∨ (split '=' t).headD [] = txt "allow" → 2 ≤ (split '=' t).length)

instance (t : List Char) : Decidable (WellFormed t) := by
  unfold WellFormed
  have : Decidable (∃ v, (split '=' t)[1]? = some v ∧ (split ',' v).length = 2) := by
    cases h : (split '=' t)[1]? with
    | none => exact isFalse (by simp)
    | some v => exact decidable_of_iff ((split ',' v).length = 2) (by simp)
  infer_instance

theorem addType_total (i : Info) (t : List Char) : (addType i t).isSome = true ↔ WellFormed t := by
  unfold addType WellFormed
  dsimp only
  generalize split '=' t = tv
  by_cases c1 : tv.headD [] = txt "timesharing"
  · rw [if_pos c1]
    have c2 : ¬ (tv.headD [] = txt "placeholder" ∨ tv.headD [] = txt "allow") := by rw [c1]; decide
    cases tv with
    | nil => exact absurd c1 (by decide)
    | cons a l =>
      cases l with
      | nil => simp at c1 c2; simp [c1]
      | cons v l =>
        simp only [c1, true_implies]
        simp only [List.getElem?_cons_succ, List.getElem?_cons_zero, Option.some.injEq, exists_eq_left']
        generalize split ',' v = w
        match w with
        | [] => simp
        | [_] => simp
        | [_, _] => simp
        | _ :: _ :: _ :: _ => simp
  rw [if_neg c1]
  by_cases c2 : tv.headD [] = txt "placeholder"
  · rw [if_pos c2]
    match tv with
    | [] => simp at c2; exact absurd c2 (by decide)
    | [a] => simp at c2; simp [c2]; 
    | a :: b :: l => simp at c1 c2 ⊢; simp [c1]
  rw [if_neg c2]
  by_cases c3 : tv.headD [] = txt "allow"
  · rw [if_pos c3]
    match tv with
    | [] => simp at c3; exact absurd c3 (by decide)
    | [a] => simp at c3; simp [c3]; 
    | a :: b :: l => simp at c1 c3 ⊢; simp [c1]
  rw [if_neg c3]
  have : ((tv.headD [] = txt "timesharing" → ∃ v, tv[1]? = some v ∧ (split ',' v).length = 2) ∧
    (tv.headD [] = txt "placeholder" ∨ tv.headD [] = txt "allow" → 2 ≤ tv.length)) ↔ True := by
    refine ⟨fun _ => trivial, fun _ => ⟨fun h => absurd h c1, fun h => ?_⟩⟩
    rcases h with h | h
    · exact absurd h c2
    · exact absurd h c3
  rw [this]
  repeat' split
  all_goals simp

/-- C62, partial: the types of a job are read without exception exactly when they are all well formed. Missing: nothing
checks this at submission. -/
theorem types_read_partial (ts : List (List Char)) (i : Info) :
    (jobTypes ts i).isSome = true ↔ ∀ t ∈ ts, WellFormed t := by
  induction ts generalizing i with
  | nil => simp [jobTypes]
  | cons t ts ih =>
    simp only [jobTypes, List.mem_cons, forall_eq_or_imp]
    rw [← addType_total i t]
    cases h : addType i t with
    | none => simp
    | some i1 => simp [ih i1]

example : WellFormed (txt "timesharing=user,*") ∧ WellFormed (txt "besteffort") ∧ WellFormed (txt "container=c") := by
  decide

/-- C62 (violated): a job submitted with the type `timesharing` (or `allow`, or `placeholder`) without value makes the
reading of the types raise, for all the jobs of the round. -/
theorem types_read_violated : jobTypes [txt "timesharing"] Info.empty = none ∧ jobTypes [txt "allow"] Info.empty = none ∧
    jobTypes [txt "besteffort", txt "timesharing=user"] Info.empty = none := by decide

/-! ## What the types mean -/

/-- The name of a type, before the first `=`. -/
def nameOf (t : List Char) : List Char := (split '=' t).headD []

/-- The value of a type: the text between the first and the second `=`. -/
def valueOf (t : List Char) : Option (List Char) := (split '=' t)[1]?

/-- The names read apart from the others. -/
def special : List (List Char) := [txt "timesharing", txt "placeholder", txt "allow", txt "assign", txt "find", txt "no_quotas"]

/-- The two parts of the value of `timesharing`. -/
def pairOf (v : List Char) : Option (List Char × List Char) := match split ',' v with
  | [u, n] => some (u, n)
  | _ => none

/-- The value kept for an ordinary type: empty unless there is exactly one `=`. -/
def plainValue (t : List Char) : List Char := match split '=' t with
  | [_, v] => v
  | _ => []

theorem jobTypes_snoc (ts : List (List Char)) (t : List Char) (i : Info) : jobTypes (ts ++ [t]) i = (jobTypes ts i).bind (fun i => addType i t) := by
  induction ts generalizing i with
  | nil => cases h : addType i t <;> simp [jobTypes, h]
  | cons x ts ih =>
    rw [List.cons_append]
    unfold jobTypes
    cases addType i x with
    | none => rfl
    | some i1 => exact ih i1

/-- The effect of one row. -/
theorem addType_effect (i i' : Info) (t : List Char) (h : addType i t = some i') :
    i'.ts = (if nameOf t = txt "timesharing" then (valueOf t).bind pairOf else i.ts) ∧
    i'.placeholder = (if nameOf t = txt "placeholder" then valueOf t else if nameOf t = txt "allow" then none else i.placeholder) ∧
    i'.allow = (if nameOf t = txt "allow" then valueOf t else if nameOf t = txt "placeholder" then none else i.allow) ∧
    i'.assign = (i.assign || decide (nameOf t = txt "assign")) ∧ i'.find = (i.find || decide (nameOf t = txt "find")) ∧
    i'.noQuotas = (i.noQuotas || decide (nameOf t = txt "no_quotas")) ∧
    ∀ k, k ∉ special → i'.types.lookup k = if nameOf t = k then some (plainValue t) else i.types.lookup k := by
  have hplain : ∀ k, k ∉ special → ∀ s ∈ special, nameOf t = s → nameOf t ≠ k := fun k hk s hs e e' => hk (e' ▸ e ▸ hs)
  unfold addType at h
  unfold plainValue
  have hv : valueOf t = (split '=' t)[1]? := rfl
  have hn : nameOf t = (split '=' t).headD [] := rfl
  rw [hn] at hplain
  rw [hv, hn]
  clear hv hn
  dsimp only at h
  generalize split '=' t = tv at *
  by_cases c1 : tv.headD [] = txt "timesharing"
  · rw [if_pos c1] at h
    split at h
    · split at h
      · rename_i hw
        cases h
        rw [c1]
        refine ⟨?_, by simp [txt], by simp [txt], by simp [txt], by simp [txt], by simp [txt], fun k hk => ?_⟩
        · simp [pairOf, hw]
        · rw [if_neg (c1 ▸ hplain k hk _ (by simp [special]) c1)]
      · cases h
    · cases h
  rw [if_neg c1] at h
  by_cases c2 : tv.headD [] = txt "placeholder"
  · rw [if_pos c2] at h
    split at h
    · cases h
      rw [c2]
      refine ⟨by simp [txt], by simp, by simp [txt], by simp [txt], by simp [txt], by simp [txt], fun k hk => ?_⟩
      rw [if_neg (c2 ▸ hplain k hk _ (by simp [special]) c2)]
    · cases h
  rw [if_neg c2] at h
  by_cases c3 : tv.headD [] = txt "allow"
  · rw [if_pos c3] at h
    split at h
    · cases h
      rw [c3]
      refine ⟨by simp [txt], by simp [txt], by simp, by simp [txt], by simp [txt], by simp [txt], fun k hk => ?_⟩
      rw [if_neg (c3 ▸ hplain k hk _ (by simp [special]) c3)]
    · cases h
  rw [if_neg c3] at h
  by_cases c4 : tv.headD [] = txt "assign"
  · rw [if_pos c4] at h
    cases h
    rw [c4]
    refine ⟨by simp [txt], by simp [txt], by simp [txt], by simp, by simp [txt], by simp [txt], fun k hk => ?_⟩
    rw [if_neg (c4 ▸ hplain k hk _ (by simp [special]) c4)]
  rw [if_neg c4] at h
  by_cases c5 : tv.headD [] = txt "find"
  · rw [if_pos c5] at h
    cases h
    rw [c5]
    refine ⟨by simp [txt], by simp [txt], by simp [txt], by simp [txt], by simp, by simp [txt], fun k hk => ?_⟩
    rw [if_neg (c5 ▸ hplain k hk _ (by simp [special]) c5)]
  rw [if_neg c5] at h
  by_cases c6 : tv.headD [] = txt "no_quotas"
  · rw [if_pos c6] at h
    cases h
    rw [c6]
    refine ⟨by simp [txt], by simp [txt], by simp [txt], by simp [txt], by simp [txt], by simp, fun k hk => ?_⟩
    rw [if_neg (c6 ▸ hplain k hk _ (by simp [special]) c6)]
  rw [if_neg c6] at h
  rw [if_neg c1, if_neg c2, if_neg c3, if_neg c3, if_neg c2]
  have d4 : decide (tv.headD [] = txt "assign") = false := decide_eq_false c4
  have d5 : decide (tv.headD [] = txt "find") = false := decide_eq_false c5
  have d6 : decide (tv.headD [] = txt "no_quotas") = false := decide_eq_false c6
  rw [d4, d5, d6, Bool.or_false, Bool.or_false, Bool.or_false]
  split at h
  · rename_i a b
    cases h
    refine ⟨rfl, rfl, rfl, rfl, rfl, rfl, fun k _ => ?_⟩
    dsimp only
    rw [lookup_dictSet]
    by_cases e : k = (List.headD [a, b] [])
    · rw [if_pos e, if_pos e.symm]
    · rw [if_neg e, if_neg (fun e' => e e'.symm)]
  · rename_i hne
    cases h
    refine ⟨rfl, rfl, rfl, rfl, rfl, rfl, fun k _ => ?_⟩
    dsimp only
    rw [lookup_dictSet]
    by_cases e : k = tv.headD []
    · rw [if_pos e, if_pos e.symm]
      split
      · rename_i a b
        exact absurd rfl (hne a b)
      · rfl
    · rw [if_neg e, if_neg (fun e' => e e'.symm)]

/-- C62: what is read of the types of a job: the last row with the name wins; `placeholder` and `allow` replace each other. -/
theorem types_meaning (ts : List (List Char)) (i : Info) (h : jobTypes ts Info.empty = some i) :
    i.ts = (ts.reverse.find? (fun t => nameOf t = txt "timesharing")).bind (fun t => (valueOf t).bind pairOf) ∧
    i.placeholder = (ts.reverse.find? (fun t => nameOf t = txt "placeholder" || nameOf t = txt "allow")).bind (fun t => if nameOf t = txt "placeholder" then valueOf t else none) ∧
    i.allow = (ts.reverse.find? (fun t => nameOf t = txt "placeholder" || nameOf t = txt "allow")).bind (fun t => if nameOf t = txt "allow" then valueOf t else none) ∧
    (i.assign = true ↔ ∃ t ∈ ts, nameOf t = txt "assign") ∧ (i.find = true ↔ ∃ t ∈ ts, nameOf t = txt "find") ∧
    (i.noQuotas = true ↔ ∃ t ∈ ts, nameOf t = txt "no_quotas") ∧
    ∀ k, k ∉ special → i.types.lookup k = (ts.reverse.find? (fun t => nameOf t = k)).map plainValue := by
  have key : ∀ (r : List (List Char)) (i : Info), jobTypes r.reverse Info.empty = some i →
    i.ts = (r.find? (fun t => nameOf t = txt "timesharing")).bind (fun t => (valueOf t).bind pairOf) ∧
    i.placeholder = (r.find? (fun t => nameOf t = txt "placeholder" || nameOf t = txt "allow")).bind (fun t => if nameOf t = txt "placeholder" then valueOf t else none) ∧
    i.allow = (r.find? (fun t => nameOf t = txt "placeholder" || nameOf t = txt "allow")).bind (fun t => if nameOf t = txt "allow" then valueOf t else none) ∧
    (i.assign = true ↔ ∃ t ∈ r, nameOf t = txt "assign") ∧ (i.find = true ↔ ∃ t ∈ r, nameOf t = txt "find") ∧
    (i.noQuotas = true ↔ ∃ t ∈ r, nameOf t = txt "no_quotas") ∧
    ∀ k, k ∉ special → i.types.lookup k = (r.find? (fun t => nameOf t = k)).map plainValue := by
    intro r
    induction r with
    | nil =>
      intro i h
      cases h
      simp [Info.empty]
    | cons t r ih =>
      intro i h
      rw [List.reverse_cons, jobTypes_snoc] at h
      obtain ⟨i1, h1, h2⟩ := Option.bind_eq_some_iff.1 h
      obtain ⟨a1, a2, a3, a4, a5, a6, a7⟩ := ih i1 h1
      obtain ⟨b1, b2, b3, b4, b5, b6, b7⟩ := addType_effect i1 i t h2
      refine ⟨?_, ?_, ?_, ?_, ?_, ?_, fun k hk => ?_⟩
      · rw [b1, List.find?_cons]
        by_cases c : nameOf t = txt "timesharing"
        · simp [c]
        · rw [if_neg c, a1, decide_eq_false c]
      · rw [b2, List.find?_cons]
        by_cases c : nameOf t = txt "placeholder"
        · simp [c]
        · rw [if_neg c, decide_eq_false c]
          by_cases c' : nameOf t = txt "allow"
          · rw [if_pos c', decide_eq_true c']
            simp [c]
          · rw [if_neg c', a2, decide_eq_false c']
            rfl
      · rw [b3, List.find?_cons]
        by_cases c' : nameOf t = txt "allow"
        · rw [if_pos c', decide_eq_true c', Bool.or_true]
          simp [c']
        · rw [if_neg c', decide_eq_false c']
          by_cases c : nameOf t = txt "placeholder"
          · rw [if_pos c, decide_eq_true c]
            simp [c']
          · rw [if_neg c, a3, decide_eq_false c]
            rfl
      · rw [b4, Bool.or_eq_true, a4, decide_eq_true_eq]
        constructor
        · rintro (⟨x, hx, e⟩ | e)
          · exact ⟨x, List.mem_cons_of_mem _ hx, e⟩
          · exact ⟨t, by simp, e⟩
        · rintro ⟨x, hx, e⟩
          rcases List.mem_cons.1 hx with rfl | hx
          · exact Or.inr e
          · exact Or.inl ⟨x, hx, e⟩
      · rw [b5, Bool.or_eq_true, a5, decide_eq_true_eq]
        constructor
        · rintro (⟨x, hx, e⟩ | e)
          · exact ⟨x, List.mem_cons_of_mem _ hx, e⟩
          · exact ⟨t, by simp, e⟩
        · rintro ⟨x, hx, e⟩
          rcases List.mem_cons.1 hx with rfl | hx
          · exact Or.inr e
          · exact Or.inl ⟨x, hx, e⟩
      · rw [b6, Bool.or_eq_true, a6, decide_eq_true_eq]
        constructor
        · rintro (⟨x, hx, e⟩ | e)
          · exact ⟨x, List.mem_cons_of_mem _ hx, e⟩
          · exact ⟨t, by simp, e⟩
        · rintro ⟨x, hx, e⟩
          rcases List.mem_cons.1 hx with rfl | hx
          · exact Or.inr e
          · exact Or.inl ⟨x, hx, e⟩
      · rw [b7 k hk, List.find?_cons]
        by_cases c : nameOf t = k
        · simp [c]
        · rw [if_neg c, a7 k hk, decide_eq_false c]
  have := key ts.reverse i (by rw [List.reverse_reverse]; exact h)
  simpa only [List.mem_reverse] using this

/-- Not vacuous: two placeholders, an ordinary type with its value and quotas left out. -/
example : jobTypes [txt "placeholder=a", txt "container", txt "no_quotas", txt "allow=b", txt "container=c"] Info.empty =
    some ⟨none, none, some (txt "b"), false, false, true, [(txt "container", txt "c")]⟩ := by decide

end Oar.JobTypes
