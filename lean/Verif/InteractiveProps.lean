import Verif.Interactive

/-!
# Property theorems about the dialogue between the server and the client of a submission (C110)
-/

namespace Oar.Interactive
open Oar.Tools

/-- A message that one `recv` reads whole. -/
def Short (n : Note) : Prop := (wire n).length ≤ 1024

instance (n : Note) : Decidable (Short n) := inferInstanceAs (Decidable (_ ≤ _))

theorem received_wire {n : Note} (h : Short n) : received (wire n) = n.text := by
  unfold received
  rw [List.take_of_length_le h]
  unfold wire
  rw [List.dropLast_concat]

/-- Every message received is printed, except the one that says that the job is ready. -/
theorem out_eq (a prev : List Char) : (shown prev a).1 = if a = txt "GOOD JOB" then [] else [a] := by
  unfold shown
  by_cases ha : a = txt "GOOD JOB"
  · subst ha
    have : afterBracket (txt "GOOD JOB") = none := by decide
    rw [this]
    dsimp only
    rw [if_neg (fun h => h rfl), if_pos rfl]
  · rw [if_neg ha]
    cases afterBracket a with
    | none => dsimp only; rw [if_pos ha]
    | some g =>
      dsimp only
      split
      · rfl
      · rfl

/-- The loop, without the state that it keeps for nothing. -/
theorem loop_cons (prev m : List Char) (ms : List (List Char)) : ∃ prev', loop prev (m :: ms) =
    if ends (received m) then (if received m = txt "GOOD JOB" then [] else [received m], if received m = txt "GOOD JOB" then .connects else .exits 11)
    else ((if received m = txt "GOOD JOB" then [] else [received m]) ++ (loop prev' ms).1, (loop prev' ms).2) := by
  refine ⟨(shown prev (received m)).2, ?_⟩
  rw [← out_eq (received m) prev]
  rfl

/-- **C110.** What is printed and the end of the wait depend on nothing but the messages: in particular a prediction that is the same as the previous one is printed again. -/
theorem loop_prev (ms : List (List Char)) : ∀ prev prev', loop prev ms = loop prev' ms := by
  induction ms with
  | nil => intros; rfl
  | cons m ms ih =>
    intro prev prev'
    obtain ⟨p, h1⟩ := loop_cons prev m ms
    obtain ⟨q, h2⟩ := loop_cons prev' m ms
    rw [h1, h2, ih p q]

theorem listen_cons (m : List Char) (ms : List (List Char)) : listen (m :: ms) =
    if ends (received m) then (if received m = txt "GOOD JOB" then [] else [received m], if received m = txt "GOOD JOB" then .connects else .exits 11)
    else ((if received m = txt "GOOD JOB" then [] else [received m]) ++ (listen ms).1, (listen ms).2) := by
  obtain ⟨p, h⟩ := loop_cons [] m ms
  unfold listen
  rw [h, loop_prev ms p []]

/-- The messages after which the client stops waiting. -/
def Decisive : Note → Prop
  | .goodJob => True
  | .failure _ => True
  | .refusal msg => (txt "ERROR").isPrefixOf msg = true
  | _ => False

instance : DecidablePred Decisive := fun n => by cases n <;> unfold Decisive <;> infer_instance

theorem isPrefixOf_concat (msg : List Char) (c : Char) (h : c ≠ 'R') : (txt "ERROR").isPrefixOf (msg ++ [c]) = (txt "ERROR").isPrefixOf msg := by
  simp only [txt, String.reduceToList]
  rcases msg with _ | ⟨a, _ | ⟨b, _ | ⟨d, _ | ⟨e, _ | ⟨f, msg⟩⟩⟩⟩⟩
  · simp [List.isPrefixOf]
  · simp [List.isPrefixOf]
  · simp [List.isPrefixOf]
  · simp [List.isPrefixOf]
  · simp [List.isPrefixOf, Ne.symm h]
  · simp [List.isPrefixOf]

theorem text_good (n : Note) : n.text = txt "GOOD JOB" ↔ n = .goodJob := by
  constructor
  · intro h
    cases n with
    | goodJob => rfl
    | prediction a b c => simp [Note.text, txt] at h
    | held => exact absurd h (by decide)
    | starting => exact absurd h (by decide)
    | failure w => simp [Note.text, txt] at h
    | refusal m =>
      have := congrArg List.getLast? h
      simp [Note.text, txt] at this
    | badJob => exact absurd h (by decide)
    | goodReservation => exact absurd h (by decide)
    | killed => exact absurd h (by decide)
  · rintro rfl; rfl

theorem ends_iff (n : Note) : ends n.text = true ↔ Decisive n := by
  cases n with
  | goodJob => exact ⟨fun _ => trivial, fun _ => by decide⟩
  | prediction a b c => simp [Note.text, txt, ends, Decisive, List.isPrefixOf]
  | held => exact ⟨fun h => absurd h (by decide), fun h => h.elim⟩
  | starting => exact ⟨fun h => absurd h (by decide), fun h => h.elim⟩
  | failure w => simp [Note.text, txt, ends, Decisive, List.isPrefixOf]
  | refusal m =>
    have h1 : ∀ t : List Char, '\n' ∉ t → ¬ (m ++ ['\n'] = t) := by
      rintro t ht rfl
      exact ht (by simp)
    show ends (m ++ ['\n']) = true ↔ (txt "ERROR").isPrefixOf m = true
    unfold ends
    rw [isPrefixOf_concat m '\n' (by decide)]
    simp only [Bool.or_eq_true, beq_iff_eq, h1 (txt "GOOD JOB") (by decide), h1 (txt "BAD JOB") (by decide), h1 (txt "JOB KILL") (by decide), false_or]
  | badJob => exact ⟨fun h => absurd h (by decide), fun h => h.elim⟩
  | goodReservation => exact ⟨fun h => absurd h (by decide), fun h => h.elim⟩
  | killed => exact ⟨fun h => absurd h (by decide), fun h => h.elim⟩

/-- **C110.** For all sequences of messages of the server: the client waits while no decisive message comes; the first one decides: it connects to the job if it is the announce that the job is ready, it exits
with the status 11 otherwise. -/
theorem listen_exact (h : List Note) (hs : ∀ n ∈ h, Short n) :
    ((∀ n ∈ h, ¬ Decisive n) → (listen (h.map wire)).2 = .waits) ∧
    ∀ pre n post, h = pre ++ n :: post → (∀ x ∈ pre, ¬ Decisive x) → Decisive n → (listen (h.map wire)).2 = if n = .goodJob then .connects else .exits 11 := by
  induction h with
  | nil => exact ⟨fun _ => rfl, fun pre n post h => by cases pre <;> cases h⟩
  | cons m h ih =>
    obtain ⟨i1, i2⟩ := ih (fun n hn => hs n (List.mem_cons_of_mem _ hn))
    have hr := received_wire (hs m List.mem_cons_self)
    rw [List.map_cons, listen_cons, hr]
    constructor
    · intro hd
      rw [if_neg (fun e => hd m List.mem_cons_self ((ends_iff m).1 e))]
      exact i1 (fun n hn => hd n (List.mem_cons_of_mem _ hn))
    · intro pre n post he hp hd
      cases pre with
      | nil =>
        simp only [List.nil_append, List.cons.injEq] at he
        obtain ⟨rfl, rfl⟩ := he
        rw [if_pos ((ends_iff m).2 hd)]
        dsimp only
        by_cases hg : m = .goodJob
        · rw [if_pos ((text_good m).2 hg), if_pos hg]
        · rw [if_neg (fun e => hg ((text_good m).1 e)), if_neg hg]
      | cons x pre =>
        simp only [List.cons_append, List.cons.injEq] at he
        obtain ⟨rfl, he⟩ := he
        rw [if_neg (fun e => hp m List.mem_cons_self ((ends_iff m).1 e))]
        exact i2 pre n post he (fun y hy => hp y (List.mem_cons_of_mem _ hy)) hd

/-- **C110.** Every message is printed, up to the end of the wait, but the announce that the job is ready. -/
theorem printed_exact (h : List Note) (hs : ∀ n ∈ h, Short n) (hd : ∀ n ∈ h, ¬ Decisive n) : (listen (h.map wire)).1 = h.map Note.text := by
  induction h with
  | nil => rfl
  | cons m h ih =>
    rw [List.map_cons, listen_cons, received_wire (hs m List.mem_cons_self), if_neg (fun e => hd m List.mem_cons_self ((ends_iff m).1 e))]
    have hg : ¬ m.text = txt "GOOD JOB" := fun e => by
      have := (text_good m).1 e
      subst this
      exact hd _ List.mem_cons_self trivial
    dsimp only
    rw [if_neg hg, ih (fun n hn => hs n (List.mem_cons_of_mem _ hn)) (fun n hn => hd n (List.mem_cons_of_mem _ hn))]
    rfl

/-- The hypotheses of the theorems hold: two predictions (the same one twice, both printed), the start, the announce. -/
theorem dialogue_example : listen ([Note.prediction (txt "t") (txt "d") (txt "m"), .prediction (txt "t") (txt "d") (txt "m"), .starting, .goodJob].map wire) =
    ([txt "[t] Start prediction: d (m)", txt "[t] Start prediction: d (m)", txt "Starting..."], .connects) := by decide

/-- **C110, violated.** Whatever came before, the client of a job that the scheduler has put in error still waits after both messages of the server - unless the message of the job begins with ERROR: the
announce of the server ends with one newline more than the client removes. -/
theorem refused_waits_violated (h : List Note) (hs : ∀ n ∈ h, Short n) (hd : ∀ n ∈ h, ¬ Decisive n) (msg : List Char) (hm : msg.length ≤ 1022) (he : (txt "ERROR").isPrefixOf msg = false) :
    (listen ((h ++ [Note.refusal msg, .badJob]).map wire)).2 = .waits := by
  refine (listen_exact _ ?_).1 ?_
  · intro n hn
    rcases List.mem_append.1 hn with hn | hn
    · exact hs n hn
    · simp only [List.mem_cons, List.not_mem_nil, or_false] at hn
      rcases hn with rfl | rfl
      · show (msg ++ ['\n'] ++ ['\n']).length ≤ 1024
        simp; omega
      · decide
  · intro n hn
    rcases List.mem_append.1 hn with hn | hn
    · exact hd n hn
    · simp only [List.mem_cons, List.not_mem_nil, or_false] at hn
      rcases hn with rfl | rfl
      · intro e
        have e' : (txt "ERROR").isPrefixOf msg = true := e
        rw [he] at e'; cases e'
      · exact id

/-- **C110, violated.** Whatever came before, the client of a job killed before its start still waits after the message of the server: it is not the text that the client expects. -/
theorem killed_waits_violated (h : List Note) (hs : ∀ n ∈ h, Short n) (hd : ∀ n ∈ h, ¬ Decisive n) : (listen ((h ++ [Note.killed]).map wire)).2 = .waits := by
  refine (listen_exact _ ?_).1 ?_
  · intro n hn
    rcases List.mem_append.1 hn with hn | hn
    · exact hs n hn
    · simp only [List.mem_singleton] at hn
      subst hn; decide
  · intro n hn
    rcases List.mem_append.1 hn with hn | hn
    · exact hd n hn
    · simp only [List.mem_singleton] at hn
      subst hn; exact id

example : (listen ([Note.starting, .refusal (txt "no such resources"), .badJob].map wire)).2 = .waits :=
  refused_waits_violated [.starting] (by decide) (by decide) (txt "no such resources") (by decide) (by decide)

theorem rstrip_newline (t : List Char) : rstrip (t ++ ['\n']) = rstrip t := by
  unfold rstrip
  rw [List.reverse_append]
  rfl

/-- **C110.** The client of a reservation says that it is granted exactly if the first message is the announce of the server, or a message of the job with the same text; it reads no other message. -/
theorem reservation_exact (n : Note) (rest : List (List Char)) (hs : Short n) (hn : n = .goodReservation ∨ (∃ m, n = .refusal m) ∨ n = .held ∨ n = .killed) :
    ∃ granted, reservation (wire n :: rest) = some granted ∧ (granted = true ↔ n = .goodReservation ∨ ∃ m, n = .refusal m ∧ rstrip m = txt "GOOD RESERVATION") := by
  unfold reservation
  dsimp only
  rw [received_wire hs]
  refine ⟨_, rfl, ?_⟩
  rcases hn with rfl | ⟨m, rfl⟩ | rfl | rfl
  · exact ⟨fun _ => Or.inl rfl, fun _ => by decide⟩
  · show (rstrip (m ++ ['\n']) == txt "GOOD RESERVATION") = true ↔ _
    rw [rstrip_newline, beq_iff_eq]
    constructor
    · exact fun h => Or.inr ⟨m, rfl, h⟩
    · rintro (e | ⟨k, e, h'⟩)
      · cases e
      · cases e; exact h'
  · refine ⟨fun h => absurd h (by decide), ?_⟩
    rintro (e | ⟨k, e, _⟩) <;> cases e
  · refine ⟨fun h => absurd h (by decide), ?_⟩
    rintro (e | ⟨k, e, _⟩) <;> cases e

/-- **C110, violated.** A reservation (made with `-I`) held before the scheduler has seen it is said to be rejected, although it is granted afterwards: the client reads the first message only. -/
theorem held_reservation_violated : reservation ([Note.held, .goodReservation].map wire) = some false := by decide

end Oar.Interactive
