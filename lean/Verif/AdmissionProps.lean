import Verif.Admission

/-!
# C71: what the default admission rules accept, and what they make of it
-/

namespace Oar.Admission

open Oar.Submission Oar.Tools

/-! ## Specification -/

/-- The job asks for the best-effort mode: by its type or by its queue. -/
def BestEffort (p : Params) : Prop := txt "besteffort" ∈ p.types ∨ p.queue = "besteffort"

instance (p : Params) : Decidable (BestEffort p) := inferInstanceAs (Decidable (_ ∨ _))

/-- A deployment job. -/
def Deploy (p : Params) : Prop := txt "deploy" ∈ p.types

/-- A level asked somewhere in the request. -/
def Asks (p : Params) (l : List Char) : Prop := ∃ i ∈ p.request, ∃ g ∈ i.groups, ∃ n, (l, n) ∈ g.res

/-- The names of types documented for the submission. -/
inductive KnownType (word : Char → Bool) : List Char → Prop
  | container : KnownType word (txt "container")
  | deploy : KnownType word (txt "deploy")
  | deployStandby : KnownType word (txt "deploy=standby")
  | desktop : KnownType word (txt "desktop_computing")
  | besteffort : KnownType word (txt "besteffort")
  | cosystem : KnownType word (txt "cosystem")
  | cosystemStandby : KnownType word (txt "cosystem=standby")
  | idempotent : KnownType word (txt "idempotent")
  | timesharing (a b : List Char) : a ∈ [txt "*", txt "user"] ∧ b ∈ [txt "*", txt "name"] ∨ a ∈ [txt "*", txt "name"] ∧ b ∈ [txt "*", txt "user"] →
      KnownType word (txt "timesharing=" ++ a ++ txt "," ++ b)
  | name (pre n : List Char) : pre ∈ [txt "container=", txt "placeholder=", txt "allowed=", txt "inner="] → n ≠ [] → (∀ c ∈ n, word c = true) →
      KnownType word (pre ++ n)

/-- A known type, possibly followed by one newline. -/
def TypeOk (word : Char → Bool) (t : List Char) : Prop := KnownType word t ∨ ∃ t', t = t' ++ ['\n'] ∧ KnownType word t'

/-- The waiting reservations of a user that the rule counts. -/
def counted (c : Ctx) : Nat :=
  c.jobs.countP (fun j => j.1 = c.user && (j.2.1 = "toSchedule" || j.2.1 = "Schedule") && (j.2.2 = "Waiting" || j.2.2 = "Hold"))

/-- The user is in the file of the users without limit. -/
def Unlimited (c : Ctx) : Prop := ∃ lines, c.unlimited = some lines ∧ ∃ l ∈ lines, ∃ a b, l = a ++ c.user ++ b

/-- The submissions that the rules accept. -/
structure Allowed (c : Ctx) (p : Params) : Prop where
  user : c.user ≠ txt "root" ∧ c.user ≠ txt "oar"
  admin : p.queue = "admin" → ∃ l, c.admins = some l ∧ c.user ∈ l
  system : ∀ l ∈ [txt "type", txt "state", txt "next_state", txt "finaud_decision", txt "next_finaud_decision", txt "state_num",
    txt "suspended_jobs", txt "besteffort", txt "deploy", txt "expiry_date", txt "desktop_computing", txt "last_job_date",
    txt "available_upto", txt "scheduler_priority"], ¬ Asks p l
  besteffort : BestEffort p → p.resv = 0
  deploy : Deploy p → ∀ l ∈ [txt "core", txt "cpu", txt "thread", txt "resource_id"], ¬ Asks p l
  resv : p.resv ≠ 0 → c.home = true ∧ (Unlimited c ∨ counted c < 2)
  types : ∀ t ∈ p.types, TypeOk c.word t

/-- The walltime of an alternative: two hours when it is not given; at most twelve hours for an interactive job that is not a
reservation. -/
def wallOf (c : Ctx) (p : Params) (w : Option Int) : Int :=
  let w := match w with
    | none => 7200
    | some w => if w = 0 then 7200 else w
  if c.interactive = true ∧ p.resv = 0 ∧ 43200 < w then 43200 else w

/-- What becomes of the parameters: a best-effort job has the type and the queue; its condition and that of the deployment jobs are
added to the properties; all the alternatives have a walltime; the condition of the administrator is the one about the drained
resources; nothing else changes. -/
structure JobOf (c : Ctx) (p p' : Params) : Prop where
  queue : (BestEffort p → p'.queue = "besteffort") ∧ (¬ BestEffort p → p'.queue = p.queue)
  types : p'.types = p.types ++ (if p.queue = "besteffort" ∧ txt "besteffort" ∉ p.types then [txt "besteffort"] else [])
  admin : p'.admin = some (txt "drain='NO'")
  props : ∃ q, (BestEffort p → q = addCond p.props (txt "besteffort = 'YES'")) ∧ (¬ BestEffort p → q = p.props) ∧
    (Deploy p → p'.props = addCond q (txt "deploy = 'YES'")) ∧ (¬ Deploy p → p'.props = q)
  request : p'.request = p.request.map (fun i => { i with walltime := some (wallOf c p i.walltime) })
  rest : p'.command = p.command ∧ p'.params = p.params ∧ p'.arrayNb = p.arrayNb ∧ p'.useKey = p.useKey ∧ p'.hold = p.hold ∧
    p'.resv = p.resv ∧ p'.deps = p.deps

/-! ## The tests -/

theorem mem_levelsOf (p : Params) (l : List Char) : l ∈ levelsOf p ↔ Asks p l := by
  simp only [levelsOf, List.mem_flatMap, List.mem_map, Asks]
  constructor
  · rintro ⟨i, hi, g, hg, ⟨a, n⟩, hx, rfl⟩
    exact ⟨i, hi, g, hg, n, hx⟩
  · rintro ⟨i, hi, g, hg, n, hx⟩
    exact ⟨i, hi, g, hg, (l, n), hx, rfl⟩

theorem any_levels (p : Params) (bad : List (List Char)) : (levelsOf p).any (fun l => bad.contains l) = false ↔ ∀ l ∈ bad, ¬ Asks p l := by
  rw [← Bool.not_eq_true, List.any_eq_true]
  constructor
  · intro h l hl ha
    exact h ⟨l, (mem_levelsOf p l).2 ha, List.contains_iff_mem.2 hl⟩
  · rintro h ⟨l, hl, hb⟩
    exact h l (List.contains_iff_mem.1 hb) ((mem_levelsOf p l).1 hl)

theorem occurs_iff (u l : List Char) : occurs u l = true ↔ ∃ a b, l = a ++ u ++ b := by
  induction l with
  | nil =>
    simp only [occurs, decide_eq_true_eq]
    constructor
    · intro h; exact ⟨[], [], by simp [h]⟩
    · rintro ⟨a, b, h⟩
      have := congrArg List.length h
      simp only [List.length_nil, List.length_append] at this
      exact List.length_eq_zero_iff.1 (by omega)
  | cons c l ih =>
    rw [occurs, Bool.or_eq_true, List.isPrefixOf_iff_prefix, ih]
    constructor
    · rintro (⟨b, h⟩ | ⟨a, b, h⟩)
      · exact ⟨[], b, by simp [h]⟩
      · exact ⟨c :: a, b, by simp [h]⟩
    · rintro ⟨a, b, h⟩
      cases a with
      | nil => exact Or.inl ⟨b, by simpa using h.symm⟩
      | cons x a =>
        refine Or.inr ⟨a, b, ?_⟩
        simp only [List.cons_append, List.cons.injEq] at h
        exact h.2

theorem named_iff (word : Char → Bool) (pre t : List Char) : named word pre t = true ↔ ∃ n, t = pre ++ n ∧ n ≠ [] ∧ ∀ c ∈ n, word c = true := by
  unfold named
  simp only [Bool.and_eq_true, List.isPrefixOf_iff_prefix, decide_eq_true_eq, List.all_eq_true]
  constructor
  · rintro ⟨⟨⟨n, rfl⟩, h1⟩, h2⟩
    rw [List.drop_left] at h1 h2
    exact ⟨n, rfl, h1, h2⟩
  · rintro ⟨n, rfl, h1, h2⟩
    rw [List.drop_left]
    exact ⟨⟨⟨n, rfl⟩, h1⟩, h2⟩

theorem known_iff (word : Char → Bool) (t : List Char) : known word t = true ↔ KnownType word t := by
  unfold known
  simp only [Bool.or_eq_true, named_iff, List.contains_iff_mem]
  constructor
  · rintro ((((h | ⟨n, rfl, h1, h2⟩) | ⟨n, rfl, h1, h2⟩) | ⟨n, rfl, h1, h2⟩) | ⟨n, rfl, h1, h2⟩)
    · simp only [List.map_cons, List.map_nil, List.mem_cons, List.not_mem_nil, or_false] at h
      rcases h with rfl | rfl | rfl | rfl | rfl | rfl | rfl | rfl | rfl | rfl | rfl | rfl | rfl | rfl | rfl
      · exact .container
      · exact .deploy
      · exact .deployStandby
      · exact .desktop
      · exact .besteffort
      · exact .cosystem
      · exact .cosystemStandby
      · exact .idempotent
      · exact .timesharing (txt "*") (txt "*") (by decide)
      · exact .timesharing (txt "*") (txt "name") (by decide)
      · exact .timesharing (txt "user") (txt "*") (by decide)
      · exact .timesharing (txt "user") (txt "name") (by decide)
      · exact .timesharing (txt "*") (txt "user") (by decide)
      · exact .timesharing (txt "name") (txt "*") (by decide)
      · exact .timesharing (txt "name") (txt "user") (by decide)
    · exact .name _ n (by simp) h1 h2
    · exact .name _ n (by simp) h1 h2
    · exact .name _ n (by simp) h1 h2
    · exact .name _ n (by simp) h1 h2
  · intro h
    cases h with
    | timesharing a b hab =>
      left; left; left; left
      simp only [List.mem_cons, List.not_mem_nil, or_false] at hab
      rcases hab with ⟨rfl | rfl, rfl | rfl⟩ | ⟨rfl | rfl, rfl | rfl⟩ <;> decide
    | name pre n hp h1 h2 =>
      simp only [List.mem_cons, List.not_mem_nil, or_false] at hp
      rcases hp with rfl | rfl | rfl | rfl
      · exact Or.inl (Or.inl (Or.inl (Or.inr ⟨n, rfl, h1, h2⟩)))
      · exact Or.inl (Or.inl (Or.inr ⟨n, rfl, h1, h2⟩))
      · exact Or.inl (Or.inr ⟨n, rfl, h1, h2⟩)
      · exact Or.inr ⟨n, rfl, h1, h2⟩
    | _ => left; left; left; left; decide

theorem matchType_iff (word : Char → Bool) (t : List Char) : matchType word t = true ↔ TypeOk word t := by
  unfold matchType TypeOk
  rw [Bool.or_eq_true, Bool.and_eq_true, known_iff, known_iff, decide_eq_true_eq]
  refine or_congr Iff.rfl ⟨?_, ?_⟩
  · rintro ⟨h1, h2⟩
    have hne : t ≠ [] := by intro h; rw [h] at h1; exact absurd h1 (by simp)
    refine ⟨t.dropLast, ?_, h2⟩
    rw [List.getLast?_eq_some_getLast hne] at h1
    rw [← Option.some.inj h1, List.dropLast_concat_getLast]
  · rintro ⟨t', rfl, h⟩
    simp [h]

theorem counted_eq (c : Ctx) : (c.jobs.filter (fun j => j.1 = c.user && (j.2.1 = "toSchedule" || j.2.1 = "Schedule") &&
      (j.2.2 = "Waiting" || j.2.2 = "Hold"))).length = counted c := by
  unfold counted
  rw [List.countP_eq_length_filter]

theorem unlimited_iff (c : Ctx) : (c.unlimited.getD []).any (occurs c.user) = true ↔ Unlimited c := by
  unfold Unlimited
  cases c.unlimited with
  | none => simp
  | some lines =>
    simp only [Option.getD_some, List.any_eq_true, occurs_iff]
    constructor
    · rintro ⟨l, hl, h⟩; exact ⟨lines, rfl, l, hl, h⟩
    · rintro ⟨ls, e, l, hl, h⟩
      rw [← Option.some.inj e] at hl
      exact ⟨l, hl, h⟩

/-! ## The rules -/

/-- The parameters after the rule on best-effort jobs. -/
theorem rule06_spec (p : Params) : (BestEffort p → (rule06 p).queue = "besteffort") ∧ (¬ BestEffort p → (rule06 p).queue = p.queue) ∧
    (rule06 p).types = p.types ++ (if p.queue = "besteffort" ∧ txt "besteffort" ∉ p.types then [txt "besteffort"] else []) ∧
    (txt "besteffort" ∈ (rule06 p).types ↔ BestEffort p) ∧
    (BestEffort p → (rule06 p).props = addCond p.props (txt "besteffort = 'YES'")) ∧ (¬ BestEffort p → (rule06 p).props = p.props) := by
  have hq : (rule06 p).queue = if txt "besteffort" ∈ p.types ∧ p.queue ≠ "besteffort" then "besteffort" else p.queue := rfl
  have ht : (rule06 p).types = if (rule06 p).queue = "besteffort" ∧ txt "besteffort" ∉ p.types then p.types ++ [txt "besteffort"] else p.types := rfl
  have hp : (rule06 p).props = if txt "besteffort" ∈ (rule06 p).types then addCond p.props (txt "besteffort = 'YES'") else p.props := rfl
  have e1 : (rule06 p).queue = if BestEffort p then "besteffort" else p.queue := by
    rw [hq]
    by_cases h1 : txt "besteffort" ∈ p.types
    · by_cases h2 : p.queue = "besteffort"
      · rw [if_neg (by simp [h2]), if_pos (show BestEffort p from Or.inl h1), h2]
      · rw [if_pos ⟨h1, h2⟩, if_pos (show BestEffort p from Or.inl h1)]
    · rw [if_neg (by simp [h1])]
      by_cases h2 : p.queue = "besteffort"
      · rw [if_pos (show BestEffort p from Or.inr h2), h2]
      · rw [if_neg (show ¬ BestEffort p by rintro (h | h) <;> contradiction)]
  have e2 : (rule06 p).types = p.types ++ (if p.queue = "besteffort" ∧ txt "besteffort" ∉ p.types then [txt "besteffort"] else []) := by
    rw [ht, e1]
    by_cases h1 : txt "besteffort" ∈ p.types
    · rw [if_neg (by simp [h1]), if_neg (by simp [h1]), List.append_nil]
    · by_cases h2 : p.queue = "besteffort"
      · rw [if_pos ⟨by rw [if_pos (show BestEffort p from Or.inr h2)], h1⟩, if_pos ⟨h2, h1⟩]
      · have : ¬ BestEffort p := by rintro (h | h) <;> contradiction
        rw [if_neg (by rw [if_neg this]; exact fun h => h2 h.1), if_neg (fun h => h2 h.1), List.append_nil]
  have e3 : txt "besteffort" ∈ (rule06 p).types ↔ BestEffort p := by
    rw [e2]
    by_cases h1 : txt "besteffort" ∈ p.types
    · simp [h1, BestEffort]
    · by_cases h2 : p.queue = "besteffort"
      · simp [h1, h2, BestEffort]
      · simp [h1, h2, BestEffort]
  refine ⟨fun h => by rw [e1, if_pos h], fun h => by rw [e1, if_neg h], e2, e3, fun h => ?_, fun h => ?_⟩
  · rw [hp, if_pos (e3.2 h)]
  · rw [hp, if_neg (fun hh => h (e3.1 hh))]

theorem rule08_types (p : Params) : (rule08 p).types = p.types ∧ (rule08 p).queue = p.queue ∧ (rule08 p).request = p.request ∧ (rule08 p).resv = p.resv ∧
    (rule08 p).admin = p.admin := by
  unfold rule08
  split <;> exact ⟨rfl, rfl, rfl, rfl, rfl⟩

theorem wall_map (c : Ctx) (p : Params) : (rule14 c (rule13 p)).request = p.request.map (fun i => { i with walltime := some (wallOf c p i.walltime) }) := by
  have h13 : ∀ i : Inst, (if i.walltime = none ∨ i.walltime = some 0 then { i with walltime := some 7200 } else i) =
      { i with walltime := some (match i.walltime with
        | none => 7200
        | some w => if w = 0 then 7200 else w) } := by
    rintro ⟨g, w⟩
    cases w with
    | none => rw [if_pos (Or.inl rfl)]
    | some w =>
      by_cases h : w = 0
      · rw [if_pos (Or.inr (by rw [h]))]; dsimp only; rw [if_pos h]
      · rw [if_neg (by simp [h])]; dsimp only; rw [if_neg h]
  by_cases hc : c.interactive = true ∧ p.resv = 0
  · have : (rule14 c (rule13 p)).request = (rule13 p).request.map capWall := by
      unfold rule14
      rw [if_pos (show c.interactive = true ∧ (rule13 p).resv = 0 from hc)]
    rw [this]
    show (p.request.map _).map capWall = _
    rw [List.map_map]
    apply List.map_congr_left
    intro i _
    show capWall (if i.walltime = none ∨ i.walltime = some 0 then { i with walltime := some 7200 } else i) = _
    rw [h13]
    unfold capWall wallOf
    dsimp only
    generalize (match i.walltime with
        | none => (7200 : Int)
        | some w => if w = 0 then 7200 else w) = w
    by_cases hw : 43200 < w
    · rw [if_pos hw, if_pos ⟨hc.1, hc.2, hw⟩]
    · rw [if_neg hw, if_neg (fun h => hw h.2.2)]
  · have : (rule14 c (rule13 p)) = rule13 p := by
      unfold rule14
      rw [if_neg (show ¬ (c.interactive = true ∧ (rule13 p).resv = 0) from hc)]
    rw [this]
    show p.request.map _ = _
    apply List.map_congr_left
    intro i _
    show (if i.walltime = none ∨ i.walltime = some 0 then { i with walltime := some 7200 } else i) = _
    rw [h13]
    unfold wallOf
    dsimp only
    rw [if_neg (fun h => hc ⟨h.1, h.2.1⟩)]

theorem rule14_rest (c : Ctx) (p : Params) : (rule14 c (rule13 p)).types = p.types ∧ (rule14 c (rule13 p)).queue = p.queue ∧ (rule14 c (rule13 p)).props = p.props ∧
    (rule14 c (rule13 p)).admin = p.admin ∧ (rule14 c (rule13 p)).command = p.command ∧ (rule14 c (rule13 p)).params = p.params ∧
    (rule14 c (rule13 p)).arrayNb = p.arrayNb ∧ (rule14 c (rule13 p)).useKey = p.useKey ∧ (rule14 c (rule13 p)).hold = p.hold ∧
    (rule14 c (rule13 p)).resv = p.resv ∧ (rule14 c (rule13 p)).deps = p.deps := by
  unfold rule14
  split <;> exact ⟨rfl, rfl, rfl, rfl, rfl, rfl, rfl, rfl, rfl, rfl, rfl⟩

/-- The parameters after all the rules, when none of them raises. -/
def final (c : Ctx) (p : Params) : Params := rule14 c (rule13 (rule08 (rule06 (rule03 p))))

/-- The conditions of the rules, one after the other. -/
theorem rules_eq (c : Ctx) (p p' : Params) : rules c p = some p' ↔
    (c.user ≠ txt "root" ∧ c.user ≠ txt "oar") ∧ (p.queue = "admin" → ∃ l, c.admins = some l ∧ c.user ∈ l) ∧
    (∀ l ∈ systemLevels, ¬ Asks p l) ∧ (BestEffort p → p.resv = 0) ∧ (Deploy p → ∀ l ∈ partLevels, ¬ Asks p l) ∧
    (p.resv ≠ 0 → c.home = true ∧ (Unlimited c ∨ counted c < 2)) ∧ (∀ t ∈ (rule06 p).types, TypeOk c.word t) ∧ p' = final c p := by
  have step : ∀ (P : Prop) [Decidable P] (q : Params) (f : Params → Option Params), (if P then none else some q).bind f = some p' ↔ ¬ P ∧ f q = some p' := by
    intro P _ q f
    by_cases h : P
    · rw [if_pos h]; simp [h]
    · rw [if_neg h]; simp [h]
  have hAsk : ∀ q : Params, q.request = p.request → ∀ l, Asks q l ↔ Asks p l := by
    intro q h l; unfold Asks; rw [h]
  unfold rules
  have e4 : ∀ q : Params, rule04 c q = if ¬ (q.queue = "admin" → ∃ l, c.admins = some l ∧ c.user ∈ l) then none else some q := by
    intro q
    unfold rule04
    by_cases h : q.queue = "admin"
    · rw [if_pos h]
      cases ha : c.admins with
      | none => dsimp only; rw [if_pos (fun h' => by obtain ⟨l, e, _⟩ := h' h; exact absurd e (by simp))]
      | some l =>
        dsimp only
        by_cases hu : c.user ∈ l
        · rw [if_pos hu, if_neg (fun h' => h' (fun _ => ⟨l, rfl, hu⟩))]
        · rw [if_neg hu, if_pos (fun h' => by obtain ⟨l', e, hm⟩ := h' h; rw [← Option.some.inj e] at hm; exact hu hm)]
    · rw [if_neg h, if_neg (fun h' => h' (fun hh => absurd hh h))]
  haveI : Decidable (Unlimited c) := Classical.propDecidable _
  have e11 : ∀ q : Params, rule11 c q = if ¬ (q.resv ≠ 0 → c.home = true ∧ (Unlimited c ∨ counted c < 2)) then none else some q := by
    intro q
    unfold rule11
    by_cases h : q.resv ≠ 0
    · rw [if_pos h]
      by_cases h1 : c.home = false
      · rw [if_pos h1, if_pos (fun h' => by have := (h' h).1; rw [h1] at this; exact absurd this (by simp))]
      · have h1' : c.home = true := by simpa using h1
        rw [if_neg h1, counted_eq]
        by_cases h2 : Unlimited c
        · rw [if_pos ((unlimited_iff c).2 h2), if_neg (fun h' => h' (fun _ => ⟨h1', Or.inl h2⟩))]
        · rw [if_neg (fun hh => h2 ((unlimited_iff c).1 hh))]
          by_cases h3 : 2 ≤ counted c
          · rw [if_pos h3, if_pos (fun h' => by
              rcases (h' h).2 with h4 | h4
              · exact h2 h4
              · omega)]
          · rw [if_neg h3, if_neg (fun h' => h' (fun _ => ⟨h1', Or.inr (by omega)⟩))]
    · rw [if_neg h, if_neg (fun h' => h' (fun hh => absurd hh h))]
  have e15 : ∀ q : Params, rule15 c q = some p' ↔ (∀ t ∈ q.types, TypeOk c.word t) ∧ p' = q := by
    intro q
    unfold rule15
    by_cases h : q.types.all (matchType c.word) = true
    · rw [if_pos h]
      have : ∀ t ∈ q.types, TypeOk c.word t := fun t ht => (matchType_iff _ _).1 (List.all_eq_true.1 h t ht)
      exact ⟨fun e => ⟨this, (Option.some.inj e).symm⟩, fun e => by rw [e.2]⟩
    · rw [if_neg h]
      refine ⟨fun e => absurd e (by simp), fun e => absurd (List.all_eq_true.2 fun t ht => (matchType_iff _ _).2 (e.1 t ht)) h⟩
  unfold rule02
  rw [step, e4, step]
  unfold rule05
  rw [step]
  unfold rule07
  rw [step]
  unfold rule09
  rw [step, e11, step, e15]
  have a5 := any_levels (rule03 p) systemLevels
  have a9 := any_levels (rule08 (rule06 (rule03 p))) partLevels
  have r8 := rule08_types (rule06 (rule03 p))
  have r6 := rule06_spec (rule03 p)
  have hBE : BestEffort (rule03 p) ↔ BestEffort p := Iff.rfl
  have hD : txt "deploy" ∈ (rule06 (rule03 p)).types ↔ Deploy p := by
    rw [r6.2.2.1]
    unfold Deploy
    rw [List.mem_append]
    constructor
    · rintro (h | h)
      · exact h
      · split at h
        · exact absurd h (by decide)
        · exact absurd h (by simp)
    · exact Or.inl
  have ht6 : (rule06 (rule03 p)).types = (rule06 p).types := rfl
  rw [Bool.not_eq_true, a5, r6.2.2.2.1, r8.1, hD]
  refine and_congr (by rw [not_or]) (and_congr (by rw [Classical.not_not]; exact Iff.rfl) (and_congr ?_ (and_congr ?_ (and_congr ?_ (and_congr ?_ (and_congr ?_ Iff.rfl))))))
  · exact forall_congr' fun l => imp_congr_right fun _ => not_congr (hAsk _ rfl l)
  · rw [hBE]
    show ¬ (BestEffort p ∧ p.resv ≠ 0) ↔ _
    exact ⟨fun h hb => Classical.byContradiction fun hr => h ⟨hb, hr⟩, fun h hh => hh.2 (h hh.1)⟩
  · constructor
    · intro h hd
      have := (Bool.not_eq_true _).mp (fun ha => h ⟨hd, ha⟩)
      rw [a9] at this
      exact fun l hl => fun hh => this l hl ((hAsk _ r8.2.2.1 l).2 hh)
    · rintro h ⟨hd, ha⟩
      rw [a9.2 (fun l hl hh => h hd l hl ((hAsk _ r8.2.2.1 l).1 hh))] at ha
      exact absurd ha (by simp)
  · rw [Classical.not_not, r8.2.2.2.1]
    exact Iff.rfl
  · rw [(rule14_rest c _).1, r8.1, ht6]

/-- **C71. The submissions accepted** are exactly those of `Allowed`. -/
theorem accepted_iff (c : Ctx) (p : Params) : (∃ p', rules c p = some p') ↔ Allowed c p := by
  have ht : (∀ t ∈ (rule06 p).types, TypeOk c.word t) ↔ ∀ t ∈ p.types, TypeOk c.word t := by
    rw [(rule06_spec p).2.2.1]
    constructor
    · exact fun h t ht => h t (List.mem_append_left _ ht)
    · intro h t ht
      rcases List.mem_append.1 ht with h' | h'
      · exact h t h'
      · split at h'
        · rw [List.mem_singleton.1 h']; exact Or.inl .besteffort
        · exact absurd h' (by simp)
  constructor
  · rintro ⟨p', h⟩
    rw [rules_eq] at h
    obtain ⟨h1, h2, h3, h4, h5, h6, h7, _⟩ := h
    exact ⟨h1, h2, h3, h4, h5, h6, ht.1 h7⟩
  · intro h
    exact ⟨final c p, (rules_eq c p _).2 ⟨h.user, h.admin, h.system, h.besteffort, h.deploy, h.resv, ht.2 h.types, rfl⟩⟩

/-- **C71. What the accepted submissions become.** -/
theorem accepted_job (c : Ctx) (p p' : Params) (h : rules c p = some p') : JobOf c p p' := by
  rw [rules_eq] at h
  obtain ⟨_, _, _, _, _, _, _, rfl⟩ := h
  have r6 := rule06_spec (rule03 p)
  have r8 := rule08_types (rule06 (rule03 p))
  have r14 := rule14_rest c (rule08 (rule06 (rule03 p)))
  have hD : txt "deploy" ∈ (rule06 (rule03 p)).types ↔ Deploy p := by
    rw [r6.2.2.1]
    unfold Deploy
    rw [List.mem_append]
    constructor
    · rintro (h | h)
      · exact h
      · split at h
        · exact absurd h (by decide)
        · exact absurd h (by simp)
    · exact Or.inl
  unfold final
  refine ⟨?_, ?_, ?_, ⟨(rule06 (rule03 p)).props, r6.2.2.2.2.1, r6.2.2.2.2.2, ?_, ?_⟩, ?_, ?_⟩
  · rw [r14.2.1, r8.2.1]; exact ⟨r6.1, r6.2.1⟩
  · rw [r14.1, r8.1, r6.2.2.1]; rfl
  · rw [r14.2.2.2.1, r8.2.2.2.2]; rfl
  · intro h
    rw [r14.2.2.1]
    unfold rule08
    rw [if_pos (hD.2 h)]
  · intro h
    rw [r14.2.2.1]
    unfold rule08
    rw [if_neg (fun hh => h (hD.1 hh))]
  · rw [wall_map, r8.2.2.1]
    show p.request.map _ = _
    apply List.map_congr_left
    intro i _
    unfold wallOf
    rw [r8.2.2.2.1]
    rfl
  · have e : ∀ q : Params, (rule08 q).command = q.command ∧ (rule08 q).params = q.params ∧ (rule08 q).arrayNb = q.arrayNb ∧ (rule08 q).useKey = q.useKey ∧
        (rule08 q).hold = q.hold ∧ (rule08 q).resv = q.resv ∧ (rule08 q).deps = q.deps := by
      intro q; unfold rule08; split <;> exact ⟨rfl, rfl, rfl, rfl, rfl, rfl, rfl⟩
    obtain ⟨e1, e2, e3, e4, e5, e6, e7⟩ := e (rule06 (rule03 p))
    obtain ⟨_, _, _, _, f1, f2, f3, f4, f5, f6, f7⟩ := r14
    rw [f1, f2, f3, f4, f5, f6, f7, e1, e2, e3, e4, e5, e6, e7]
    exact ⟨rfl, rfl, rfl, rfl, rfl, rfl, rfl⟩

end Oar.Admission
