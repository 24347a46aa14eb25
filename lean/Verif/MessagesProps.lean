import Verif.MessagesSpec
import Verif.ToolsProps

/-!
# C119: the message of a job tells its resources, walltime, mode, queue and name
-/

namespace Oar.Messages

open Oar.Tools Oar.Messages.Spec

/-! ## Texts -/

theorem str_chars (n : Int) : ∀ c ∈ str n, c.isDigit = true ∨ c = '-' := by
  intro c hc
  unfold str at hc
  split at hc
  · rcases List.mem_cons.1 hc with rfl | hc
    · exact Or.inr rfl
    · exact Or.inl (List.all_eq_true.1 (digits_spec _).2.1 c hc)
  · exact Or.inl (List.all_eq_true.1 (digits_spec _).2.1 c hc)

theorem str_nat (n : Nat) : str (n : Int) = digits n := by
  unfold str
  rw [if_neg (by omega)]
  rfl

theorem plain_str (n : Int) : Plain (str n) := by
  intro c hc
  rcases str_chars n c hc with h | rfl
  · constructor <;> (rintro rfl; revert h; decide)
  · decide

theorem plain_append {a b : List Char} : Plain (a ++ b) ↔ Plain a ∧ Plain b := by
  unfold Plain
  constructor
  · intro h
    exact ⟨fun c hc => h c (List.mem_append_left _ hc), fun c hc => h c (List.mem_append_right _ hc)⟩
  · rintro ⟨h1, h2⟩ c hc
    rcases List.mem_append.1 hc with h | h
    · exact h1 c h
    · exact h2 c h

theorem plain_cons {a : Char} {b : List Char} : Plain (a :: b) ↔ (a ≠ ',' ∧ a ≠ ' ') ∧ Plain b := by
  rw [show a :: b = [a] ++ b from rfl, plain_append]
  simp [Plain]

theorem plain_sql (w : Int) : Plain (durationToSql w) := by
  unfold durationToSql hmsToSql
  refine plain_append.2 ⟨plain_str _, plain_cons.2 ⟨by decide, plain_append.2 ⟨plain_str _, plain_cons.2 ⟨by decide, plain_str _⟩⟩⟩⟩

theorem plain_joined_bar : ∀ l : List (List Char), (∀ t ∈ l, Plain t) → Plain (joined (txt "|") l)
  | [], _ => by simp [joined, Plain]
  | [a], h => h a (by simp)
  | a :: b :: l, h => by
    unfold joined
    exact plain_append.2 ⟨plain_append.2 ⟨h a (by simp), by decide⟩, plain_joined_bar (b :: l) (fun t ht => h t (List.mem_cons_of_mem _ ht))⟩

/-- Splitting gives the fields back. -/
theorem split_joined (x : Char) : ∀ fs : List (List Char), fs ≠ [] → (∀ f ∈ fs, ∀ c ∈ f, c ≠ x) → split x (joined [x] fs) = fs
  | [], h, _ => absurd rfl h
  | [a], _, h => split_nil_sep a x (h a (by simp))
  | a :: b :: l, _, h => by
    unfold joined
    rw [List.append_assoc, show [x] ++ joined [x] (b :: l) = x :: joined [x] (b :: l) from rfl, split_cons_sep _ _ _ (h a (by simp)),
      split_joined x (b :: l) (by simp) (fun f hf => h f (List.mem_cons_of_mem _ hf))]

/-- The trailing comma dropped. -/
theorem dropLast_flat (x : Char) : ∀ fs : List (List Char), (fs.flatMap (fun f => f ++ [x])).dropLast = joined [x] fs
  | [] => rfl
  | [a] => by simp [joined]
  | a :: b :: l => by
    unfold joined
    rw [List.flatMap_cons, List.dropLast_append_of_ne_nil (by simp [List.flatMap_cons]), dropLast_flat x (b :: l)]

theorem takeWhile_all {p : Char → Bool} : ∀ {a : List Char} (b : List Char), (∀ c ∈ a, p c = true) → (a ++ b).takeWhile p = a ++ b.takeWhile p
  | [], _, _ => rfl
  | c :: a, b, h => by
    rw [List.cons_append, List.takeWhile_cons, if_pos (h c (by simp)), takeWhile_all b (fun d hd => h d (List.mem_cons_of_mem _ hd))]
    rfl

theorem noSpace_joined : ∀ fs : List (List Char), (∀ f ∈ fs, Plain f) → ∀ c ∈ joined (txt ",") fs, c ≠ ' '
  | [], _, c, hc => by simp [joined] at hc
  | [a], h, c, hc => (h a (by simp) c hc).2
  | a :: b :: l, h, c, hc => by
    unfold joined at hc
    rcases List.mem_append.1 hc with hc | hc
    · rcases List.mem_append.1 hc with hc | hc
      · exact (h a (by simp) c hc).2
      · rw [show txt "," = [','] from rfl] at hc
        simp at hc
        subst hc
        decide
    · exact noSpace_joined (b :: l) (fun f hf => h f (List.mem_cons_of_mem _ hf)) c hc

/-- Whether a field is the one of the letter `k`. -/
abbrev isKey (k : Char) (f : List Char) : Bool := decide (f.take 2 = [k, '='])

/-- The fields of a text made of plain fields, whatever follows a space. -/
theorem value_joined (k : Char) (fs : List (List Char)) (hne : fs ≠ []) (h : ∀ f ∈ fs, Plain f) (rest : List Char)
    (hr : rest = [] ∨ rest.head? = some ' ') :
    value k (joined (txt ",") fs ++ rest) = (fs.find? (isKey k)).map (·.drop 2) := by
  unfold value body
  rw [takeWhile_all _ (by intro c hc; simpa using noSpace_joined fs h c hc)]
  have : rest.takeWhile (fun x => decide (x ≠ ' ')) = [] := by
    rcases hr with rfl | hr
    · rfl
    · cases rest with
      | nil => rfl
      | cons a l =>
        simp only [List.head?_cons, Option.some.injEq] at hr
        subst hr
        simp
  rw [this, List.append_nil, show txt "," = [','] from rfl, split_joined _ fs hne (fun f hf c hc => (h f hf c hc).1)]

/-! ## The message of a submission -/

/-- The field of the name. -/
def nameF (s : Sub) : List (List Char) := match s.name with | none => [] | some n => if n = [] then [] else [txt "N=" ++ n]

/-- The field of the queue. -/
def queueF (s : Sub) : List (List Char) := if s.queue ≠ txt "default" ∧ s.queue ≠ txt "besteffort" then [txt "Q=" ++ s.queue] else []

/-- The field of the project. -/
def projectF (s : Sub) : List (List Char) := if s.project ≠ txt "default" then [txt "P=" ++ s.project] else []

/-- The field of the types. -/
def typesF (s : Sub) : List (List Char) := if s.types = [] then [] else [txt "T=" ++ joined (txt "|") s.types]

/-- The fields of the message of a submission. -/
def subFields (s : Sub) : List (List Char) :=
  [txt "R=" ++ str s.nb, txt "W=" ++ durationToSql s.wall, txt "J=" ++ mode s] ++ nameF s ++ queueF s ++ projectF s ++ typesF s

theorem submitted_fields (s : Sub) : submitted s = joined (txt ",") (subFields s) := by
  rw [show txt "," = [','] from rfl, ← dropLast_flat]
  unfold submitted subFields
  congr 1
  simp only [List.flatMap_append, List.flatMap_cons, List.flatMap_nil, List.append_nil]
  have e1 : namePart s = List.flatMap (fun f => f ++ [',']) (nameF s) := by
    unfold namePart nameF
    cases s.name with
    | none => rfl
    | some n =>
      dsimp only
      split <;> simp [txt]
  have e2 : queuePart s = List.flatMap (fun f => f ++ [',']) (queueF s) := by
    unfold queuePart queueF
    split <;> simp [txt]
  have e3 : projectPart s = List.flatMap (fun f => f ++ [',']) (projectF s) := by
    unfold projectPart projectF
    split <;> simp [txt]
  have e4 : typesPart s = List.flatMap (fun f => f ++ [',']) (typesF s) := by
    unfold typesPart typesF
    split <;> simp [txt]
  rw [e1, e2, e3, e4]
  simp [txt]

theorem find_name (k : Char) (s : Sub) : (nameF s).find? (isKey k) = if k = 'N' then (shown s.name).map (fun n => txt "N=" ++ n) else none := by
  unfold nameF shown
  cases s.name with
  | none => simp
  | some n =>
    dsimp only
    by_cases hn : n = []
    · rw [if_pos hn]; subst hn; simp
    · rw [if_neg hn]
      cases n with
      | nil => exact absurd rfl hn
      | cons a l =>
        by_cases hk : k = 'N'
        · subst hk; simp [txt]
        · rw [if_neg hk]; simp [txt]; exact fun h => hk h.symm

theorem find_queue (k : Char) (s : Sub) : (queueF s).find? (isKey k) =
    if k = 'Q' ∧ ¬ (s.queue = txt "default" ∨ s.queue = txt "besteffort") then some (txt "Q=" ++ s.queue) else none := by
  unfold queueF
  by_cases hq : s.queue ≠ txt "default" ∧ s.queue ≠ txt "besteffort"
  · rw [if_pos hq]
    have hq' : ¬ (s.queue = txt "default" ∨ s.queue = txt "besteffort") := by
      rintro (h | h)
      · exact hq.1 h
      · exact hq.2 h
    by_cases hk : k = 'Q'
    · rw [if_pos ⟨hk, hq'⟩]; subst hk; simp [txt]
    · rw [if_neg (fun h => hk h.1)]; simp [txt]; exact fun h => hk h.symm
  · rw [if_neg hq]
    have hq' : ¬ ¬ (s.queue = txt "default" ∨ s.queue = txt "besteffort") := by
      intro h
      exact hq ⟨fun h' => h (Or.inl h'), fun h' => h (Or.inr h')⟩
    rw [if_neg (fun h => hq' h.2)]
    rfl

theorem find_project (k : Char) (s : Sub) : (projectF s).find? (isKey k) = if k = 'P' ∧ ¬ s.project = txt "default" then some (txt "P=" ++ s.project) else none := by
  unfold projectF
  by_cases hq : s.project ≠ txt "default"
  · rw [if_pos hq]
    by_cases hk : k = 'P'
    · rw [if_pos ⟨hk, hq⟩]; subst hk; simp [txt]
    · rw [if_neg (fun h => hk h.1)]; simp [txt]; exact fun h => hk h.symm
  · rw [if_neg hq, if_neg (fun h => hq h.2)]
    rfl

theorem find_types (k : Char) (s : Sub) : (typesF s).find? (isKey k) = if k = 'T' ∧ ¬ s.types = [] then some (txt "T=" ++ joined (txt "|") s.types) else none := by
  unfold typesF
  by_cases hq : s.types = []
  · rw [if_pos hq, if_neg (fun h => h.2 hq)]
    rfl
  · rw [if_neg hq]
    by_cases hk : k = 'T'
    · rw [if_pos ⟨hk, hq⟩]; subst hk; simp [txt]
    · rw [if_neg (fun h => hk h.1)]; simp [txt]; exact fun h => hk h.symm

theorem mode_plain (s : Sub) : Plain (mode s) := by
  unfold mode
  split
  · decide
  · split <;> decide

theorem subFields_plain (s : Sub) (h : PlainSub s) : ∀ f ∈ subFields s, Plain f := by
  obtain ⟨h1, h2, h3, h4⟩ := h
  intro f hf
  unfold subFields nameF queueF projectF typesF at hf
  simp only [List.mem_append] at hf
  rcases hf with (((hf | hf) | hf) | hf) | hf
  · simp only [List.mem_cons, List.not_mem_nil, or_false] at hf
    rcases hf with rfl | rfl | rfl
    · exact plain_append.2 ⟨by decide, plain_str _⟩
    · exact plain_append.2 ⟨by decide, plain_sql _⟩
    · exact plain_append.2 ⟨by decide, mode_plain s⟩
  · cases hn : s.name with
    | none => rw [hn] at hf; simp at hf
    | some n =>
      rw [hn] at hf
      dsimp only at hf
      split at hf
      · simp at hf
      · simp only [List.mem_singleton] at hf
        subst hf
        exact plain_append.2 ⟨by decide, h1 n hn⟩
  · split at hf
    · simp only [List.mem_singleton] at hf
      subst hf
      exact plain_append.2 ⟨by decide, h2⟩
    · simp at hf
  · split at hf
    · simp only [List.mem_singleton] at hf
      subst hf
      exact plain_append.2 ⟨by decide, h3⟩
    · simp at hf
  · split at hf
    · simp at hf
    · simp only [List.mem_singleton] at hf
      subst hf
      exact plain_append.2 ⟨by decide, plain_joined_bar _ h4⟩

theorem value_submitted (k : Char) (s : Sub) (h : PlainSub s) :
    value k (submitted s) = ((subFields s).find? (isKey k)).map (·.drop 2) := by
  rw [submitted_fields, ← value_joined k _ (by simp [subFields]) (subFields_plain s h) [] (Or.inl rfl), List.append_nil]

/-- **C119.** For all submissions whose name, queue, project and types have neither comma nor space, the message tells the number of resources, the walltime, the mode, the name, the
queue (unless it is `default` or `besteffort`), the project (unless it is `default`) and the types. -/
theorem submission_partial (s : Sub) (h : PlainSub s) :
    (value 'R' (submitted s)).bind pyInt = some (s.nb : Int) ∧ (value 'W' (submitted s)).bind sqlToDuration = some s.wall ∧
    value 'J' (submitted s) = some (if s.reserv then ['R'] else if s.inter then ['I'] else ['B']) ∧
    value 'N' (submitted s) = shown s.name ∧
    value 'Q' (submitted s) = (if s.queue = txt "default" ∨ s.queue = txt "besteffort" then none else some s.queue) ∧
    value 'P' (submitted s) = (if s.project = txt "default" then none else some s.project) ∧
    ((∀ t ∈ s.types, Without '|' t) → value 'T' (submitted s) = none ∧ s.types = [] ∨ (value 'T' (submitted s)).map (split '|') = some s.types) := by
  have hv := fun k => value_submitted k s h
  rw [hv 'R', hv 'W', hv 'J', hv 'N', hv 'Q', hv 'P', hv 'T']
  unfold subFields
  refine ⟨?_, ?_, ?_, ?_, ?_, ?_, ?_⟩
  · simp [txt, pyInt_str]
  · simp [txt, sql_roundtrip]
  · simp [txt, mode]
  · have n := find_name 'N' s
    rw [if_pos rfl] at n
    have q := find_queue 'N' s
    rw [if_neg (fun h => absurd h.1 (by decide))] at q
    have p := find_project 'N' s
    rw [if_neg (fun h => absurd h.1 (by decide))] at p
    have t := find_types 'N' s
    rw [if_neg (fun h => absurd h.1 (by decide))] at t
    simp only [List.append_assoc, List.find?_append, n, q, p, t]
    cases shown s.name <;> simp [txt]
  · have n := find_name 'Q' s
    rw [if_neg (by decide)] at n
    have q := find_queue 'Q' s
    have p := find_project 'Q' s
    rw [if_neg (fun h => absurd h.1 (by decide))] at p
    have t := find_types 'Q' s
    rw [if_neg (fun h => absurd h.1 (by decide))] at t
    by_cases hq : s.queue = txt "default" ∨ s.queue = txt "besteffort"
    · rw [if_neg (fun h => h.2 hq)] at q
      rw [if_pos hq]
      simp only [List.append_assoc, List.find?_append, n, q, p, t]
      simp [txt]
    · rw [if_pos ⟨rfl, hq⟩] at q
      rw [if_neg hq]
      simp only [List.append_assoc, List.find?_append, n, q, p, t]
      simp [txt]
  · have n := find_name 'P' s
    rw [if_neg (by decide)] at n
    have q := find_queue 'P' s
    rw [if_neg (fun h => absurd h.1 (by decide))] at q
    have p := find_project 'P' s
    have t := find_types 'P' s
    rw [if_neg (fun h => absurd h.1 (by decide))] at t
    by_cases hq : s.project = txt "default"
    · rw [if_neg (fun h => h.2 hq)] at p
      rw [if_pos hq]
      simp only [List.append_assoc, List.find?_append, n, q, p, t]
      simp [txt]
    · rw [if_pos ⟨rfl, hq⟩] at p
      rw [if_neg hq]
      simp only [List.append_assoc, List.find?_append, n, q, p, t]
      simp [txt]
  · intro ht
    have n := find_name 'T' s
    rw [if_neg (by decide)] at n
    have q := find_queue 'T' s
    rw [if_neg (fun h => absurd h.1 (by decide))] at q
    have p := find_project 'T' s
    rw [if_neg (fun h => absurd h.1 (by decide))] at p
    have t := find_types 'T' s
    by_cases hq : s.types = []
    · left
      rw [if_neg (fun h => h.2 hq)] at t
      refine ⟨?_, hq⟩
      simp only [List.append_assoc, List.find?_append, n, q, p, t]
      simp [txt]
    · right
      rw [if_pos ⟨rfl, hq⟩] at t
      simp only [List.append_assoc, List.find?_append, n, q, p, t]
      have := split_joined '|' s.types hq ht
      simp [txt]
      exact this

/-- **C119.** Two such submissions with the same message ask for the same things. -/
theorem submission_unique (s t : Sub) (hs : PlainSub s) (ht : PlainSub t) (bs : ∀ x ∈ s.types, Without '|' x) (bt : ∀ x ∈ t.types, Without '|' x)
    (h : submitted s = submitted t) :
    s.nb = t.nb ∧ s.wall = t.wall ∧ mode s = mode t ∧ shown s.name = shown t.name ∧ s.types = t.types ∧
    (s.queue = t.queue ∨ (s.queue = txt "default" ∨ s.queue = txt "besteffort") ∧ (t.queue = txt "default" ∨ t.queue = txt "besteffort")) ∧
    s.project = t.project := by
  obtain ⟨r1, w1, j1, n1, q1, p1, t1⟩ := submission_partial s hs
  obtain ⟨r2, w2, j2, n2, q2, p2, t2⟩ := submission_partial t ht
  rw [h] at r1 w1 j1 n1 q1 p1 t1
  have t1 := t1 bs
  have t2 := t2 bt
  refine ⟨?_, ?_, ?_, n1.symm.trans n2, ?_, ?_, ?_⟩
  · have := r1.symm.trans r2
    exact Int.ofNat.inj (Option.some.inj this)
  · exact Option.some.inj (w1.symm.trans w2)
  · exact Option.some.inj (j1.symm.trans j2)
  · rcases t1 with ⟨a, b⟩ | a <;> rcases t2 with ⟨c, d⟩ | c
    · rw [b, d]
    · rw [a] at c; simp at c
    · rw [c] at a; simp at a
    · exact Option.some.inj (a.symm.trans c)
  · have := q1.symm.trans q2
    split at this <;> rename_i c1
    · split at this <;> rename_i c2
      · exact Or.inr ⟨c1, c2⟩
      · simp at this
    · split at this <;> rename_i c2
      · simp at this
      · exact Or.inl (Option.some.inj this)
  · have := p1.symm.trans p2
    split at this <;> rename_i c1
    · split at this <;> rename_i c2
      · rw [c1, c2]
      · simp at this
    · split at this <;> rename_i c2
      · simp at this
      · exact Option.some.inj this

/-! ## The message written by a round -/

theorem fields_plain (r : Row) (p : Place) (hq : Plain r.queue) (hn : Plain r.name) : ∀ f ∈ fields r p, Plain f := by
  intro f hf
  unfold fields at hf
  simp only [List.mem_append] at hf
  rcases hf with (((hf | hf) | hf) | hf) | hf
  · simp only [List.mem_singleton] at hf
    subst hf
    exact plain_append.2 ⟨by decide, plain_str _⟩
  · cases hw : p.wall with
    | none => rw [hw] at hf; simp at hf
    | some w =>
      rw [hw] at hf
      simp only [List.mem_singleton] at hf
      subst hf
      exact plain_append.2 ⟨by decide, plain_str _⟩
  · simp only [List.mem_singleton] at hf
    subst hf
    split <;> decide
  · simp only [List.mem_singleton] at hf
    subst hf
    exact plain_append.2 ⟨by decide, hq⟩
  · split at hf
    · simp at hf
    · simp only [List.mem_singleton] at hf
      subst hf
      exact plain_append.2 ⟨by decide, hn⟩

theorem karmaPart_head (p : Place) : karmaPart p = [] ∨ (karmaPart p).head? = some ' ' := by
  unfold karmaPart
  cases p.karma with
  | none => exact Or.inl rfl
  | some k => exact Or.inr rfl

theorem value_message (k : Char) (r : Row) (p : Place) (hq : Plain r.queue) (hn : Plain r.name) :
    value k (message r p) = ((fields r p).find? (isKey k)).map (·.drop 2) := by
  unfold message
  exact value_joined k _ (by simp [fields]) (fields_plain r p hq hn) _ (karmaPart_head p)

/-- **C119.** For all jobs whose queue and name have neither comma nor space, the message written by a round tells the number of resources, the walltime given, in seconds, the kind, the
queue and the name; it tells nothing of the project and of the types. -/
theorem round_partial (r : Row) (p : Place) (hq : Plain r.queue) (hn : Plain r.name) :
    (value 'R' (message r p)).bind pyInt = some (p.nb : Int) ∧ (value 'W' (message r p)).bind pyInt = p.wall ∧
    value 'J' (message r p) = some (if r.passive then ['P'] else ['I']) ∧ value 'Q' (message r p) = some r.queue ∧
    value 'N' (message r p) = shown (some r.name) ∧ value 'P' (message r p) = none ∧ value 'T' (message r p) = none := by
  have hv := fun k => value_message k r p hq hn
  rw [hv 'R', hv 'W', hv 'J', hv 'Q', hv 'N', hv 'P', hv 'T']
  have hname : shown (some r.name) = if r.name = [] then none else some r.name := by
    unfold shown
    cases r.name <;> simp
  rw [hname]
  unfold fields
  cases hw : p.wall with
  | none =>
    cases r.passive <;> by_cases h : r.name = [] <;> simp [txt, pyInt_str, h]
  | some w =>
    cases r.passive <;> by_cases h : r.name = [] <;> simp [txt, pyInt_str, h]

/-- **C119.** A round writes the messages, and the karmas, of the jobs that have a date, and of these jobs only. -/
theorem save_exact (rows : List Row) (ps : List Place) (hu : (ps.map (·.id)).Nodup) (i : Nat) (r : Row) (h : rows[i]? = some r) :
    ((∀ p ∈ ps, p.id = r.id → p.start ≤ -1) → (save rows ps)[i]? = some r) ∧
    ∀ p ∈ ps, p.id = r.id → p.start > -1 → (save rows ps)[i]? = some { r with message := message r p, karma := p.karma.orElse (fun _ => r.karma) } := by
  unfold save
  rw [List.getElem?_map, h, Option.map_some]
  constructor
  · intro hp
    have : saved ps r = [] := by
      unfold saved
      rw [List.filter_eq_nil_iff]
      intro p hp'
      simp only [decide_eq_true_eq]
      rintro ⟨h1, h2⟩
      have := hp p hp' h1
      omega
    rw [this]
    rfl
  · intro p hp hid hst
    have : saved ps r = [p] := by
      unfold saved
      induction ps with
      | nil => simp at hp
      | cons q l ih =>
        rw [List.map_cons, List.nodup_cons] at hu
        rcases List.mem_cons.1 hp with rfl | hp
        · rw [List.filter_cons, if_pos (by simp [hid, hst])]
          congr 1
          rw [List.filter_eq_nil_iff]
          intro q' hq'
          simp only [decide_eq_true_eq]
          rintro ⟨h1, -⟩
          exact hu.1 (List.mem_map.2 ⟨q', hq', by rw [h1, hid]⟩)
        · rw [List.filter_cons, if_neg]
          · exact ih hu.2 hp
          · simp only [decide_eq_true_eq]
            rintro ⟨h1, -⟩
            exact hu.1 (List.mem_map.2 ⟨p, hp, by rw [h1, hid]⟩)
    rw [this]
    cases hk : p.karma <;> simp [hk]

/-! ## Histories -/

/-- The row after a history. -/
def after (wall sec : Int) (r : Row) (evs : List Ev) : Row := evs.foldl (step wall sec) r

theorem save_one (r : Row) (p : Place) (h1 : p.id = r.id) (h2 : p.start > -1) :
    ((save [r] [p]).head?).getD r = { r with message := message r p, karma := p.karma.orElse (fun _ => r.karma) } := by
  have := (save_exact [r] [p] (by simp) 0 r rfl).2 p (by simp) h1 h2
  rw [List.head?_eq_getElem?, this]
  rfl

theorem save_keeps (r : Row) (p : Place) : (((save [r] [p]).head?).getD r).passive = r.passive ∧ (((save [r] [p]).head?).getD r).queue = r.queue ∧
    (((save [r] [p]).head?).getD r).name = r.name ∧ (((save [r] [p]).head?).getD r).id = r.id := by
  unfold save
  rw [List.map_cons, List.head?_cons, Option.getD_some]
  cases (saved [p] r).getLast? <;> simp

theorem step_keeps (wall sec : Int) (r : Row) (e : Ev) :
    (step wall sec r e).passive = r.passive ∧ (step wall sec r e).queue = r.queue ∧ (step wall sec r e).name = r.name ∧ (step wall sec r e).id = r.id := by
  cases e with
  | placed st nb k => exact save_keeps _ _
  | accepted st nb => exact save_keeps _ _
  | current st nb => exact save_keeps _ _
  | lost nb => exact ⟨rfl, rfl, rfl, rfl⟩
  | late w => exact ⟨rfl, rfl, rfl, rfl⟩

theorem after_keeps (wall sec : Int) (r : Row) (evs : List Ev) :
    (after wall sec r evs).passive = r.passive ∧ (after wall sec r evs).queue = r.queue ∧ (after wall sec r evs).name = r.name ∧ (after wall sec r evs).id = r.id := by
  unfold after
  induction evs generalizing r with
  | nil => exact ⟨rfl, rfl, rfl, rfl⟩
  | cons e l ih =>
    obtain ⟨a, b, c, d⟩ := ih (step wall sec r e)
    obtain ⟨a', b', c', d'⟩ := step_keeps wall sec r e
    exact ⟨a.trans a', b.trans b', c.trans c', d.trans d'⟩

theorem message_congr (r q : Row) (p : Place) (h1 : q.passive = r.passive) (h2 : q.queue = r.queue) (h3 : q.name = r.name) : message q p = message r p := by
  unfold message fields
  rw [h1, h2, h3]

/-- The place given by an event, if any. -/
def placeOf (wall sec : Int) (id : Nat) : Ev → Option Place
  | .placed st nb k => some ⟨id, st, nb, some (wall + sec), k⟩
  | .accepted st nb => some ⟨id, st, nb, some (wall + sec), none⟩
  | .current st nb => some ⟨id, st, nb, none, none⟩
  | _ => none

theorem after_place (wall sec : Int) (r : Row) (evs : List Ev) (e : Ev) (p : Place) (he : placeOf wall sec r.id e = some p) (hs : p.start > -1) :
    (after wall sec r (evs ++ [e])).message = message r p := by
  have hk := after_keeps wall sec r evs
  unfold after at *
  rw [List.foldl_append]
  show (step wall sec (evs.foldl (step wall sec) r) e).message = _
  generalize hq : evs.foldl (step wall sec) r = q at *
  obtain ⟨k1, k2, k3, k4⟩ := hk
  cases e with
  | placed st nb k =>
    simp only [placeOf, Option.some.injEq] at he
    subst he
    show (((save [q] [_]).head?).getD q).message = _
    rw [save_one q ⟨q.id, st, nb, _, _⟩ rfl hs]
    exact (message_congr r q _ k1 k2 k3).trans rfl
  | accepted st nb =>
    simp only [placeOf, Option.some.injEq] at he
    subst he
    show (((save [q] [_]).head?).getD q).message = _
    rw [save_one q ⟨q.id, st, nb, _, _⟩ rfl hs]
    exact (message_congr r q _ k1 k2 k3).trans rfl
  | current st nb =>
    simp only [placeOf, Option.some.injEq] at he
    subst he
    show (((save [q] [_]).head?).getD q).message = _
    rw [save_one q ⟨q.id, st, nb, _, _⟩ rfl hs]
    exact (message_congr r q _ k1 k2 k3).trans rfl
  | lost nb => simp [placeOf] at he
  | late w => simp [placeOf] at he

/-- **C119.** Whatever happened before, the message of a waiting job that a round has given a date tells its number of resources, its kind, its queue and its name. -/
theorem waiting_partial (wall sec : Int) (r : Row) (evs : List Ev) (st : Int) (nb : Nat) (k : Option (List Char)) (hs : st > -1) (hq : Plain r.queue) (hn : Plain r.name) :
    (value 'R' (after wall sec r (evs ++ [.placed st nb k])).message).bind pyInt = some (nb : Int) ∧
    value 'J' (after wall sec r (evs ++ [.placed st nb k])).message = some (if r.passive then ['P'] else ['I']) ∧
    value 'Q' (after wall sec r (evs ++ [.placed st nb k])).message = some r.queue ∧
    value 'N' (after wall sec r (evs ++ [.placed st nb k])).message = shown (some r.name) := by
  rw [after_place wall sec r evs _ _ rfl hs]
  obtain ⟨a, -, b, c, d, -⟩ := round_partial r ⟨r.id, st, nb, some (wall + sec), k⟩ hq hn
  exact ⟨a, b, c, d⟩

/-- C119 (violated). The walltime of a waiting job, for every job and every history: once the job has a date, the message gives the walltime plus the security time, in a form that is
not the one of the submission. -/
theorem units_violated (wall sec : Int) (r : Row) (evs : List Ev) (st : Int) (nb : Nat) (k : Option (List Char)) (hs : st > -1) (hq : Plain r.queue) (hn : Plain r.name) :
    (value 'W' (after wall sec r (evs ++ [.placed st nb k])).message).bind pyInt = some (wall + sec) ∧
    (value 'W' (after wall sec r (evs ++ [.placed st nb k])).message).bind sqlToDuration = none := by
  rw [after_place wall sec r evs _ _ rfl hs]
  refine ⟨(round_partial r ⟨r.id, st, nb, some (wall + sec), k⟩ hq hn).2.1, ?_⟩
  rw [value_message 'W' r _ hq hn]
  have : ((fields r ⟨r.id, st, nb, some (wall + sec), k⟩).find? (isKey 'W')).map (·.drop 2) = some (str (wall + sec)) := by
    unfold fields
    simp [txt]
  rw [this]
  show sqlToDuration (str (wall + sec)) = none
  unfold sqlToDuration sqlToHms
  rw [split_nil_sep _ _ (str_no_colon _)]
  rfl

/-- C119 (violated). The message of a job that runs, for every job and every history: after a round it does not give the walltime, the project and the types any more, nor the karma. -/
theorem walltime_violated (wall sec : Int) (r : Row) (evs : List Ev) (st : Int) (nb : Nat) (hs : st > -1) (hq : Plain r.queue) (hn : Plain r.name) :
    value 'W' (after wall sec r (evs ++ [.current st nb])).message = none ∧ value 'P' (after wall sec r (evs ++ [.current st nb])).message = none ∧
    value 'T' (after wall sec r (evs ++ [.current st nb])).message = none ∧
    (after wall sec r (evs ++ [.current st nb])).message = joined (txt ",") (fields r ⟨r.id, st, nb, none, none⟩) := by
  rw [after_place wall sec r evs _ _ rfl hs]
  obtain ⟨-, a, -, -, -, b, c⟩ := round_partial r ⟨r.id, st, nb, none, none⟩ hq hn
  refine ⟨?_, b, c, ?_⟩
  · rw [value_message 'W' r _ hq hn]
    unfold fields
    cases r.passive <;> by_cases h : r.name = [] <;> simp [txt, h]
  · unfold message karmaPart
    simp

end Oar.Messages
