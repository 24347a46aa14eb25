import Verif.EndRoundSpec

/-!
# C103: the end of a round
-/

namespace Oar.EndRound

open Oar.Jobs Oar.Tools

/-! ### Addresses -/

theorem split_ne_nil (c : Char) (t : List Char) : split c t ≠ [] := by
  induction t with
  | nil => simp [split]
  | cons x xs ih =>
    unfold split
    split
    · simp
    · split <;> simp

theorem split_one {c : Char} : ∀ {t p : List Char}, split c t = [p] → t = p ∧ c ∉ p
  | [], p, h => by simp [split] at h; subst h; simp
  | x :: xs, p, h => by
    unfold split at h
    split at h
    · have := split_ne_nil c xs
      simp at h
      exact absurd h.2 this
    · rename_i hx
      split at h
      · rename_i e; exact absurd e (split_ne_nil c xs)
      · rename_i w ws e
        simp at h
        obtain ⟨rfl, rfl⟩ := h
        have := split_one e
        refine ⟨by rw [this.1], ?_⟩
        simp only [List.mem_cons, not_or]
        exact ⟨fun hh => hx hh.symm, this.2⟩

theorem split_two {c : Char} : ∀ {t a p : List Char}, split c t = [a, p] → t = a ++ c :: p ∧ c ∉ a ∧ c ∉ p
  | [], a, p, h => by simp [split] at h
  | x :: xs, a, p, h => by
    unfold split at h
    split at h
    · rename_i hx
      simp at h
      obtain ⟨rfl, h2⟩ := h
      have := split_one h2
      refine ⟨by rw [hx, this.1]; rfl, by simp, this.2⟩
    · rename_i hx
      split at h
      · rename_i e; exact absurd e (split_ne_nil c xs)
      · rename_i w ws e
        simp at h
        obtain ⟨rfl, rfl⟩ := h
        have := split_two e
        refine ⟨by rw [this.1]; rfl, ?_, this.2.2⟩
        simp only [List.mem_cons, not_or]
        exact ⟨fun hh => hx hh.symm, this.2.1⟩

theorem split_plain (c : Char) : ∀ w : List Char, c ∉ w → split c w = [w]
  | [], _ => rfl
  | x :: w, h => by
    simp only [List.mem_cons, not_or] at h
    have hx : ¬ x = c := fun e => h.1 e.symm
    simp [split, split_plain c w h.2, hx]

theorem split_append (c : Char) (v : List Char) : ∀ w : List Char, c ∉ w → split c (w ++ c :: v) = w :: split c v
  | [], _ => by simp [split]
  | x :: w, h => by
    simp only [List.mem_cons, not_or] at h
    have hx : ¬ x = c := fun e => h.1 e.symm
    simp [split, split_append c v w h.2, hx]

theorem address_iff (env : Env) (i : Nat) (a p : List Char) : address env i = some (a, p) ↔ HasAddress env i a p := by
  unfold address HasAddress
  cases env.info i with
  | none => simp
  | some t =>
    dsimp only
    constructor
    · intro h
      split at h
      · rename_i a' p' e
        simp at h
        obtain ⟨rfl, rfl⟩ := h
        have := split_two e
        exact ⟨by rw [← this.1], this.2⟩
      · simp at h
    · rintro ⟨h, ha, hp⟩
      simp at h
      subst h
      rw [split_append ':' p a ha, split_plain ':' p hp]

theorem address_some (env : Env) (i : Nat) : (∃ x, address env i = some x) ↔ ∃ a p, HasAddress env i a p := by
  constructor
  · rintro ⟨⟨a, p⟩, h⟩; exact ⟨a, p, (address_iff env i a p).1 h⟩
  · rintro ⟨a, p, h⟩; exact ⟨_, (address_iff env i a p).2 h⟩

theorem tell_eq {env : Env} {i : Nat} (m : Msg) (h : HasClient env i) : tell env i m = match env.net i m with
    | .received => some true
    | .refused => some false
    | .cut => none := by
  obtain ⟨a, p, n, h1, h2, h3, h4⟩ := h
  unfold tell
  rw [(address_iff env i a p).2 h1]
  dsimp only
  rw [h2]
  dsimp only
  rw [if_neg (by omega)]
  cases env.net i m <;> rfl

theorem tell_client {env : Env} {i : Nat} {m : Msg} {b : Bool} (h : tell env i m = some b) : HasClient env i := by
  unfold tell at h
  cases h1 : address env i with
  | none => rw [h1] at h; simp at h
  | some x =>
    obtain ⟨a, p⟩ := x
    rw [h1] at h
    dsimp only at h
    cases h2 : pyInt p with
    | none => rw [h2] at h; simp at h
    | some n =>
      rw [h2] at h
      dsimp only at h
      by_cases hn : n < 0 ∨ 65535 < n
      · rw [if_pos hn] at h; simp at h
      · exact ⟨a, p, n, (address_iff env i a p).1 h1, h2, by omega, by omega⟩

/-- A message is sent exactly when the job has a client that receives it. -/
theorem tell_true (env : Env) (i : Nat) (m : Msg) : tell env i m = some true ↔ HasClient env i ∧ env.net i m = .received := by
  constructor
  · intro h
    have hc := tell_client h
    refine ⟨hc, ?_⟩
    rw [tell_eq m hc] at h
    cases hn : env.net i m <;> rw [hn] at h <;> simp at h ⊢
  · rintro ⟨hc, hn⟩
    rw [tell_eq m hc, hn]

theorem tell_false (env : Env) (i : Nat) (m : Msg) : tell env i m = some false ↔ HasClient env i ∧ env.net i m = .refused := by
  constructor
  · intro h
    have hc := tell_client h
    refine ⟨hc, ?_⟩
    rw [tell_eq m hc] at h
    cases hn : env.net i m <;> rw [hn] at h <;> simp at h ⊢
  · rintro ⟨hc, hn⟩
    rw [tell_eq m hc, hn]

theorem tell_some (env : Env) (i : Nat) (m : Msg) : (∃ b, tell env i m = some b) ↔ HasClient env i ∧ env.net i m ≠ .cut := by
  constructor
  · rintro ⟨b, h⟩
    have hc := tell_client h
    refine ⟨hc, ?_⟩
    rw [tell_eq m hc] at h
    cases hn : env.net i m <;> rw [hn] at h <;> simp at h ⊢
  · rintro ⟨hc, hn⟩
    rw [tell_eq m hc]
    cases h : env.net i m <;> simp
    exact hn h

/-! ### Loops -/

theorem each_inv (f : JobRow → St → St × Bool) (I : St → Prop) : ∀ (l : List JobRow) (st : St), (∀ j ∈ l, ∀ s, I s → I (f j s).1) → I st → I (each f l st).1
  | [], _, _, h => h
  | j :: l, st, hf, h => by
    unfold each
    have h1 := hf j (by simp) st h
    split
    · exact each_inv f I l _ (fun k hk => hf k (by simp [hk])) h1
    · exact h1

theorem each_iff (f : JobRow → St → St × Bool) (I : St → Prop) (P : JobRow → Prop) : ∀ (l : List JobRow) (st : St), (∀ j ∈ l, ∀ s, I s → I (f j s).1) →
    (∀ j ∈ l, ∀ s, I s → ((f j s).2 = true ↔ P j)) → I st → ((each f l st).2 = true ↔ ∀ j ∈ l, P j)
  | [], _, _, _, _ => by simp [each]
  | j :: l, st, hf, hp, h => by
    unfold each
    have h1 := hf j (by simp) st h
    have h2 := hp j (by simp) st h
    by_cases hb : (f j st).2 = true
    · rw [if_pos hb, each_iff f I P l _ (fun k hk => hf k (by simp [hk])) (fun k hk => hp k (by simp [hk])) h1]
      simp [h2.1 hb]
    · rw [if_neg hb]
      constructor
      · intro hh; exact absurd hh hb
      · intro hh; exact h2.2 (hh j (by simp))

theorem each_done (f : JobRow → St → St × Bool) (I : List JobRow → St → Prop) : ∀ (l pre : List JobRow) (st : St),
    (∀ a j b s, pre ++ l = a ++ j :: b → I a s → (f j s).2 = true → I (a ++ [j]) (f j s).1) → I pre st → (each f l st).2 = true → I (pre ++ l) (each f l st).1
  | [], pre, st, _, h, _ => by simpa [each] using h
  | j :: l, pre, st, hf, h, hb => by
    unfold each at hb ⊢
    by_cases hj : (f j st).2 = true
    · rw [if_pos hj] at hb ⊢
      have := each_done f I l (pre ++ [j]) (f j st).1 (by simpa using hf) (hf pre j l st rfl h hj) hb
      simpa using this
    · rw [if_neg hj] at hb
      exact absurd hb hj

/-! ### The tables -/

theorem fragJob_jobs (db : DB) (now : Int) (i : Nat) (u : String) : (fragJob db now i u).2.jobs = db.jobs := by
  unfold fragJob
  split
  · rfl
  · split
    · split <;> rfl
    · rfl

theorem stateOf_jobs {db db' : DB} (h : db'.jobs = db.jobs) (i : Nat) : db'.stateOf i = db.stateOf i := by
  unfold DB.stateOf DB.job?
  rw [h]

theorem setJobState_frags (db : DB) (now : Int) (i : Nat) (s : String) : (setJobState db now i s).frags = db.frags := by
  unfold setJobState
  split
  · rfl
  · split <;> rfl

theorem fragged_jobs {db : DB} {now : Int} {j : JobRow} {u : String} (hu : u = "oar" ∨ u = "root") (hj : j ∈ db.jobs) (i : Nat) :
    Fragged (fragJob db now j.id u).2 i ↔ Fragged db i ∨ i = j.id := by
  unfold fragJob
  cases h : db.job? j.id with
  | none => exact absurd rfl (job?_none h j hj)
  | some k =>
    dsimp only
    have hu' : u = k.user ∨ u = "oar" ∨ u = "root" := Or.inr hu
    rw [if_pos hu']
    by_cases ha : (db.frags.any (fun f => f.jid == j.id)) = true
    · rw [if_pos ha]
      constructor
      · intro hh; exact Or.inl hh
      · rintro (hh | rfl)
        · exact hh
        · simp at ha
          exact ha
    · rw [if_neg ha]
      simp only [Fragged, addEvent, List.mem_append, List.mem_singleton]
      constructor
      · rintro ⟨f, hf | rfl, rfl⟩
        · exact Or.inl ⟨f, hf, rfl⟩
        · exact Or.inr rfl
      · rintro (⟨f, hf, rfl⟩ | rfl)
        · exact ⟨f, Or.inl hf, rfl⟩
        · exact ⟨_, Or.inr rfl, rfl⟩

theorem stateOf_mem {db : DB} (hu : Unique db) {j : JobRow} (hj : j ∈ db.jobs) : db.stateOf j.id = some j.state := by
  unfold DB.stateOf
  cases h : db.job? j.id with
  | none => exact absurd rfl (job?_none h j hj)
  | some k =>
    have := job?_some h
    have e : k = j := by
      unfold Unique at hu
      clear h
      revert this hj
      generalize db.jobs = l at hu
      induction l with
      | nil => simp
      | cons x xs ih =>
        rw [List.map_cons, List.nodup_cons] at hu
        intro h1 h2
        rcases List.mem_cons.1 h1 with rfl | h4
        · rcases List.mem_cons.1 h2.1 with rfl | h3
          · rfl
          · exact absurd (h2.2 ▸ List.mem_map_of_mem h3) hu.1
        · rcases List.mem_cons.1 h2.1 with rfl | h3
          · exact absurd (h2.2 ▸ List.mem_map_of_mem (f := fun x => x.id) h4) hu.1
          · exact ih hu.2 h4 ⟨h3, h2.2⟩
    rw [e]
    rfl

theorem mem_inState (db : DB) (s : String) (j : JobRow) : j ∈ inState db s ↔ j ∈ db.jobs ∧ j.state = s := by
  simp [inState]

theorem mem_interactive (env : Env) (db : DB) (j : JobRow) : j ∈ interactive env db ↔ j ∈ db.jobs ∧ Predicted env j := by
  simp [interactive, Predicted, and_assoc]

/-- A job to resume waits exactly when it has resources and another job, on any resource, is in one of the states. -/
theorem otherJobs_iff (env : Env) (db : DB) (j : JobRow) : otherJobs env db j ≠ [] ↔ HasResources env j ∧ ∃ k ∈ db.jobs, k.id ≠ j.id ∧ Busy k.state := by
  have key : (∃ i, i ∈ otherJobs env db j) ↔ HasResources env j ∧ ∃ k ∈ db.jobs, k.id ≠ j.id ∧ Busy k.state := by
    unfold otherJobs
    simp only [List.mem_eraseDups, List.mem_flatMap, List.mem_filter, List.mem_map]
    constructor
    · rintro ⟨i, a1, ⟨h1, h1'⟩, a2, ⟨h2, h2'⟩, k, ⟨hk, hk'⟩, rfl⟩
      refine ⟨⟨a1.2, ?_⟩, k, hk, ?_⟩
      · have : a1.1 = j.assigned := by simpa using h1'
        rw [← this]; exact h1
      · simp [Busy] at hk' ⊢
        exact ⟨fun e => hk'.1 e.symm, hk'.2⟩
    · rintro ⟨⟨r, hr⟩, k, hk, hne, hb⟩
      refine ⟨k.id, (j.assigned, r), ⟨hr, by simp⟩, (j.assigned, r), ⟨hr, by simp⟩, k, ⟨hk, ?_⟩, rfl⟩
      simp [Busy] at hb ⊢
      exact ⟨fun e => hne e.symm, hb⟩
  rw [← key]
  constructor
  · intro h
    cases e : otherJobs env db j with
    | nil => exact absurd e h
    | cons x xs => exact ⟨x, by simp⟩
  · rintro ⟨i, hi⟩ e
    rw [e] at hi
    simp at hi

theorem resources_iff (env : Env) (j : JobRow) : (env.assigned.all (fun a => a.1 != j.assigned)) = false ↔ HasResources env j := by
  simp only [List.all_eq_false, HasResources]
  constructor
  · rintro ⟨x, hx, he⟩
    refine ⟨x.2, ?_⟩
    have : x.1 = j.assigned := by simpa using he
    rw [← this]; exact hx
  · rintro ⟨r, hr⟩
    exact ⟨_, hr, by simp⟩

/-! ### The steps -/

theorem andThen_true (x : St × Bool) (f : St → St × Bool) : (andThen x f).2 = true ↔ x.2 = true ∧ (f x.1).2 = true := by
  unfold andThen
  split
  · rename_i h; simp [h]
  · rename_i h; simp [h]

theorem andThen_inv {I : St → Prop} {x : St × Bool} {f : St → St × Bool} (h : I x.1) (hf : ∀ s, I s → I (f s).1) : I (andThen x f).1 := by
  unfold andThen
  split
  · exact hf _ h
  · exact h

theorem andThen_eq {x : St × Bool} {f : St → St × Bool} (h : x.2 = true) : andThen x f = f x.1 := by
  unfold andThen
  rw [if_pos h]

theorem resume_frame (env : Env) (j : JobRow) (st : St) : (resume env j st).1.db.jobs = st.db.jobs ∧ (resume env j st).1.told = st.told ∧
    (resume env j st).1.asked = st.asked ∧ (resume env j st).1.code = st.code := by
  unfold resume
  split
  · exact ⟨rfl, rfl, rfl, rfl⟩
  · split
    · exact ⟨rfl, rfl, rfl, rfl⟩
    · split
      · exact ⟨rfl, rfl, rfl, rfl⟩
      · split
        · exact ⟨rfl, rfl, rfl, rfl⟩
        · split
          · split
            · exact ⟨rfl, rfl, rfl, rfl⟩
            · refine ⟨?_, rfl, rfl, rfl⟩
              rw [fragJob_jobs]; rfl
          · refine ⟨?_, rfl, rfl, rfl⟩
            rw [fragJob_jobs]; rfl

theorem resume_ok {env : Env} {db : DB} {j : JobRow} {st : St} (h : st.db.jobs = db.jobs) : (resume env j st).2 = true ↔
    ((∃ k ∈ db.jobs, HasResources env j ∧ k.id ≠ j.id ∧ Busy k.state) ∨ (HasResources env j ∧ "noop" ∉ j.types ∧ env.script ≠ none)) := by
  have ho := otherJobs_iff env st.db j
  rw [h] at ho
  have hr := resources_iff env j
  unfold resume
  by_cases h1 : otherJobs env st.db j ≠ []
  · rw [if_pos h1]
    obtain ⟨a, k, b, c⟩ := ho.1 h1
    simp only [true_iff]
    exact Or.inl ⟨k, b, a, c⟩
  · rw [if_neg h1]
    have h1' : ¬ ∃ k ∈ db.jobs, HasResources env j ∧ k.id ≠ j.id ∧ Busy k.state := fun ⟨k, b, a, c⟩ => h1 (ho.2 ⟨a, k, b, c⟩)
    by_cases h2 : (env.assigned.all (fun a => a.1 != j.assigned)) = true
    · rw [if_pos h2]
      have : ¬ HasResources env j := fun hh => by rw [← hr, h2] at hh; cases hh
      constructor
      · intro hh; cases hh
      · rintro (hh | hh)
        · exact absurd hh h1'
        · exact absurd hh.1 this
    · rw [if_neg h2]
      have hres : HasResources env j := hr.1 (by simpa using h2)
      by_cases h3 : "noop" ∈ j.types
      · rw [if_pos h3]
        constructor
        · intro hh; cases hh
        · rintro (hh | hh)
          · exact absurd hh h1'
          · exact absurd h3 hh.2.1
      · rw [if_neg h3]
        cases h4 : env.script with
        | none =>
          dsimp only
          constructor
          · intro hh; cases hh
          · rintro (hh | hh)
            · exact absurd hh h1'
            · exact absurd rfl hh.2.2
        | some f =>
          dsimp only
          constructor
          · intro _; exact Or.inr ⟨hres, h3, by simp⟩
          · intro _
            split
            · split <;> rfl
            · rfl

theorem predict_frame (env : Env) (j : JobRow) (st : St) : (predict env j st).1.db.jobs = st.db.jobs ∧
    (predict env j st).1.asked = st.asked ∧ (predict env j st).1.code = st.code := by
  unfold predict
  split
  · exact ⟨rfl, rfl, rfl⟩
  · exact ⟨rfl, rfl, rfl⟩
  · refine ⟨?_, rfl, rfl⟩
    rw [fragJob_jobs]; rfl

theorem predict_ok (env : Env) (j : JobRow) (st : St) : (predict env j st).2 = true ↔ HasClient env j.id ∧ env.net j.id .prediction ≠ .cut := by
  rw [← tell_some]
  unfold predict
  cases h : tell env j.id .prediction with
  | none => simp
  | some b => cases b <;> simp

theorem fail_ok (env : Env) (j : JobRow) (st : St) : (fail env j st).2 = true ↔ (∃ a p, HasAddress env j.id a p) ∧
    (Waits j → HasClient env j.id ∧ env.net j.id .text ≠ .cut ∧ env.net j.id .badJob ≠ .cut) := by
  rw [← address_some]
  unfold fail
  cases ha : address env j.id with
  | none => simp
  | some x =>
    dsimp only
    by_cases hw : j.jtype = "INTERACTIVE" ∨ (j.jtype = "PASSIVE" ∧ j.reservation = "Scheduled")
    · rw [if_pos hw]
      have hw' : Waits j := hw
      have t1 := tell_some env j.id .text
      have t2 := tell_some env j.id .badJob
      cases h1 : tell env j.id .text with
      | none =>
        rw [h1] at t1
        simp at t1
        constructor
        · intro hh; cases hh
        · rintro ⟨-, hh⟩
          exact absurd (t1 (hh hw').1) (hh hw').2.1
      | some b1 =>
        rw [h1] at t1
        dsimp only
        cases h2 : tell env j.id .badJob with
        | none =>
          rw [h2] at t2
          simp at t2
          constructor
          · intro hh; cases hh
          · rintro ⟨-, hh⟩
            exact absurd (t2 (hh hw').1) (hh hw').2.2
        | some b2 =>
          rw [h2] at t2
          dsimp only
          refine ⟨fun _ => ⟨⟨x, rfl⟩, fun _ => ?_⟩, fun _ => rfl⟩
          have a1 := t1.1 ⟨b1, rfl⟩
          exact ⟨a1.1, a1.2, (t2.1 ⟨b2, rfl⟩).2⟩
    · rw [if_neg hw]
      refine ⟨fun _ => ⟨⟨x, rfl⟩, fun h => absurd h hw⟩, fun _ => rfl⟩

theorem ack_ok (env : Env) (j : JobRow) (st : St) : (ack env j st).2 = true ↔ HasClient env j.id ∧ env.net j.id .goodReservation = .received := by
  rw [← tell_true]
  unfold ack
  cases h : tell env j.id .goodReservation with
  | none => simp
  | some b => cases b <;> simp

theorem launch_ok (env : Env) (j : JobRow) (st : St) : (launch env j st).2 = true := by
  unfold launch
  split
  · rfl
  · split <;> rfl

/-- The state after the first two loops. -/
def begun (env : Env) (code : Int) (db : DB) : St × Bool :=
  andThen (each (resume env) (inState db "Resuming") ⟨db, [], [], code⟩) (fun st => each (predict env) (interactive env st.db) st)

theorem resumed_frame (env : Env) (code : Int) (db : DB) (l : List JobRow) : (each (resume env) l ⟨db, [], [], code⟩).1.db.jobs = db.jobs ∧
    (each (resume env) l ⟨db, [], [], code⟩).1.told = [] ∧ (each (resume env) l ⟨db, [], [], code⟩).1.asked = [] ∧
    (each (resume env) l ⟨db, [], [], code⟩).1.code = code := by
  apply each_inv (resume env) (fun s => s.db.jobs = db.jobs ∧ s.told = [] ∧ s.asked = [] ∧ s.code = code)
  · intro j _ s hs
    have := resume_frame env j s
    rw [this.1, this.2.1, this.2.2.1, this.2.2.2]
    exact hs
  · exact ⟨rfl, rfl, rfl, rfl⟩

theorem interactive_jobs {env : Env} {a b : DB} (h : a.jobs = b.jobs) : interactive env a = interactive env b := by
  unfold interactive
  rw [h]

theorem begun_frame (env : Env) (code : Int) (db : DB) : (begun env code db).1.db.jobs = db.jobs ∧ (begun env code db).1.asked = [] ∧ (begun env code db).1.code = code := by
  unfold begun
  have h := resumed_frame env code db (inState db "Resuming")
  apply andThen_inv (I := fun s => s.db.jobs = db.jobs ∧ s.asked = [] ∧ s.code = code)
  · exact ⟨h.1, h.2.2⟩
  · intro s hs
    apply each_inv (predict env) (fun s => s.db.jobs = db.jobs ∧ s.asked = [] ∧ s.code = code)
    · intro j _ s hs
      have := predict_frame env j s
      rw [this.1, this.2.1, this.2.2]
      exact hs
    · exact hs

theorem begun_ok (env : Env) (code : Int) (db : DB) : (begun env code db).2 = true ↔
    (∀ j ∈ db.jobs, j.state = "Resuming" → (∃ k ∈ db.jobs, HasResources env j ∧ k.id ≠ j.id ∧ Busy k.state) ∨
      (HasResources env j ∧ "noop" ∉ j.types ∧ env.script ≠ none)) ∧
    (∀ j ∈ db.jobs, Predicted env j → HasClient env j.id ∧ env.net j.id .prediction ≠ .cut) := by
  unfold begun
  rw [andThen_true]
  have h := resumed_frame env code db (inState db "Resuming")
  have e1 := each_iff (resume env) (fun s => s.db.jobs = db.jobs) (fun j => (∃ k ∈ db.jobs, HasResources env j ∧ k.id ≠ j.id ∧ Busy k.state) ∨
      (HasResources env j ∧ "noop" ∉ j.types ∧ env.script ≠ none)) (inState db "Resuming") ⟨db, [], [], code⟩
      (fun j _ s hs => by rw [(resume_frame env j s).1]; exact hs) (fun j _ s hs => resume_ok hs) rfl
  have e2 := each_iff (predict env) (fun _ => True) (fun j => HasClient env j.id ∧ env.net j.id .prediction ≠ .cut)
      (interactive env db) (each (resume env) (inState db "Resuming") ⟨db, [], [], code⟩).1 (fun _ _ _ _ => trivial) (fun j _ s _ => predict_ok env j s) trivial
  rw [interactive_jobs (env := env) h.1, e1, e2]
  simp only [mem_inState, mem_interactive, and_imp]

theorem finish_begun (env : Env) (code : Int) (db : DB) : finish env code db =
    andThen (andThen (andThen (begun env code db) (each (fail env) (inState db "toError"))) (each (ack env) (inState db "toAckReservation")))
      (each (launch env) (inState db "toLaunch")) := rfl

/-- The round ends without exception exactly under these conditions. -/
theorem completes_iff (env : Env) (code : Int) (db : DB) : (finish env code db).2 = true ↔ Completes env db := by
  rw [finish_begun, andThen_true, andThen_true, andThen_true, begun_ok]
  have e3 : ∀ s, (each (fail env) (inState db "toError") s).2 = true ↔ ∀ j ∈ inState db "toError", (∃ a p, HasAddress env j.id a p) ∧
    (Waits j → HasClient env j.id ∧ env.net j.id .text ≠ .cut ∧ env.net j.id .badJob ≠ .cut) := fun s =>
    each_iff (fail env) (fun _ => True) _ _ s (fun _ _ _ _ => trivial) (fun j _ s _ => fail_ok env j s) trivial
  have e4 : ∀ s, (each (ack env) (inState db "toAckReservation") s).2 = true ↔ ∀ j ∈ inState db "toAckReservation", HasClient env j.id ∧
    env.net j.id .goodReservation = .received := fun s =>
    each_iff (ack env) (fun _ => True) _ _ s (fun _ _ _ _ => trivial) (fun j _ s _ => ack_ok env j s) trivial
  have e5 : ∀ s, (each (launch env) (inState db "toLaunch") s).2 = true := fun s =>
    (each_iff (launch env) (fun _ => True) (fun _ => True) _ s (fun _ _ _ _ => trivial) (fun j _ s _ => by simp [launch_ok]) trivial).2 (fun _ _ => trivial)
  rw [e3, e4]
  simp only [e5, and_true, mem_inState, and_imp, Completes, and_assoc]

end Oar.EndRound
