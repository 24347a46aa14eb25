import Verif.EndRoundProps

/-!
# C103: the theorems on the end of a round
-/

namespace Oar.EndRound

open Oar.Jobs Oar.Tools

/-! ### What holds whatever the exceptions -/

theorem stateOf_fail {db0 db : DB} (now : Int) {j : JobRow} (i : Nat) (_ : db0.stateOf j.id = some "toError")
    (h : db.stateOf j.id = some "toError" ∨ db.stateOf j.id = some "Error") :
    (setJobState db now j.id "Error").stateOf i = if i = j.id then some "Error" else db.stateOf i := by
  by_cases hi : i = j.id
  · subst hi
    rw [if_pos rfl, stateOf_setJobState]
    rcases h with h | h <;> rw [h] <;> rfl
  · rw [if_neg hi, stateOf_setJobState_other db now (fun e => hi e.symm)]

theorem stateOf_ack {db : DB} (now : Int) {j : JobRow} (i : Nat)
    (h : db.stateOf j.id = some "toAckReservation" ∨ db.stateOf j.id = some "Waiting") :
    (setJobState db now j.id "Waiting").stateOf i = if i = j.id then some "Waiting" else db.stateOf i := by
  by_cases hi : i = j.id
  · subst hi
    rw [if_pos rfl, stateOf_setJobState]
    rcases h with h | h <;> rw [h] <;> rfl
  · rw [if_neg hi, stateOf_setJobState_other db now (fun e => hi e.symm)]

theorem fair_resume {env : Env} {db : DB} {st : St} (h : Fair env db st) (j : JobRow) : Fair env db (resume env j st).1 := by
  have f := resume_frame env j st
  have hs := fun i => stateOf_jobs f.1 i
  constructor
  · intro i; rw [hs, f.2.1]; exact h.states i
  · intro i; rw [hs, f.2.1]; exact h.good i
  · intro i; rw [hs, f.2.1]; exact h.bad i
  · intro i; rw [f.2.1]; exact h.text i
  · intro i; rw [f.2.1]; exact h.prediction i
  · intro i; rw [f.2.2.1]; exact h.asked i

theorem fair_predict {env : Env} {db : DB} {st : St} (h : Fair env db st) {j : JobRow} (hj : j ∈ db.jobs) (hp : Predicted env j) :
    Fair env db (predict env j st).1 := by
  have f := predict_frame env j st
  have hs := fun i => stateOf_jobs f.1 i
  have ht : (predict env j st).1.told = st.told ∨ ((predict env j st).1.told = st.told ++ [(j.id, .prediction)] ∧ HasClient env j.id) := by
    unfold predict
    split
    · exact Or.inl rfl
    · rename_i e; exact Or.inr ⟨rfl, tell_client e⟩
    · exact Or.inl rfl
  have hm : ∀ i m, (i, m) ∈ (predict env j st).1.told → (i, m) ∈ st.told ∨ (i = j.id ∧ m = .prediction ∧ HasClient env j.id) := by
    intro i m hh
    rcases ht with e | ⟨e, hc⟩
    · rw [e] at hh; exact Or.inl hh
    · rw [e] at hh
      simp at hh
      rcases hh with hh | ⟨h1, h2⟩
      · exact Or.inl hh
      · exact Or.inr ⟨h1, h2, hc⟩
  have hm' : ∀ x ∈ st.told, x ∈ (predict env j st).1.told := by
    intro x hx
    rcases ht with e | ⟨e, _⟩
    · rw [e]; exact hx
    · rw [e]; simp [hx]
  constructor
  · intro i; rw [hs]
    rcases h.states i with a | a | ⟨a, b, c⟩
    · exact Or.inl a
    · exact Or.inr (Or.inl a)
    · exact Or.inr (Or.inr ⟨a, b, hm' _ c⟩)
  · intro i hi; rw [hs]
    rcases hm i _ hi with a | ⟨_, a, _⟩
    · exact h.good i a
    · cases a
  · intro i hi; rw [hs]
    rcases hm i _ hi with a | ⟨_, a, _⟩
    · exact h.bad i a
    · cases a
  · intro i hi
    rcases hm i _ hi with a | ⟨_, a, _⟩
    · exact h.text i a
    · cases a
  · intro i hi
    rcases hm i _ hi with a | ⟨a, _, c⟩
    · exact h.prediction i a
    · exact ⟨j, hj, a.symm, hp, a ▸ c⟩
  · intro i; rw [f.2.1]; exact h.asked i

theorem note_mem (st : St) (jid : Nat) (m : Msg) (ok : Bool) (x : Nat × Msg) : x ∈ (note st jid m ok).told ↔ x ∈ st.told ∨ (ok = true ∧ x = (jid, m)) := by
  unfold note
  split
  · rename_i h; simp [h]
  · rename_i h; simp [h]

theorem note_db (st : St) (jid : Nat) (m : Msg) (ok : Bool) : (note st jid m ok).db = st.db ∧ (note st jid m ok).asked = st.asked ∧ (note st jid m ok).code = st.code := by
  unfold note
  split <;> exact ⟨rfl, rfl, rfl⟩

/-- What the treatment of a job in error does. -/
theorem fail_cases (env : Env) (j : JobRow) (st : St) :
    ((fail env j st).2 = false ∧ (fail env j st).1 = st) ∨
    ((fail env j st).2 = false ∧ Waits j ∧ HasClient env j.id ∧ ∃ b1, (fail env j st).1 = note st j.id .text b1) ∨
    ((fail env j st).2 = true ∧ ((¬ Waits j ∧ (fail env j st).1 = { st with db := setJobState st.db env.now j.id "Error" }) ∨
      (Waits j ∧ HasClient env j.id ∧ ∃ b1 b2, (b1 = true ↔ env.net j.id .text = .received) ∧ (b2 = true ↔ env.net j.id .badJob = .received) ∧
        (fail env j st).1 = { note (note st j.id .text b1) j.id .badJob b2 with db := setJobState st.db env.now j.id "Error" }))) := by
  unfold fail
  cases ha : address env j.id with
  | none => exact Or.inl ⟨rfl, rfl⟩
  | some x =>
    dsimp only
    by_cases hw : j.jtype = "INTERACTIVE" ∨ (j.jtype = "PASSIVE" ∧ j.reservation = "Scheduled")
    · rw [if_pos hw]
      have hw' : Waits j := hw
      cases h1 : tell env j.id .text with
      | none => exact Or.inl ⟨rfl, rfl⟩
      | some b1 =>
        dsimp only
        cases h2 : tell env j.id .badJob with
        | none => exact Or.inr (Or.inl ⟨rfl, hw', tell_client h1, b1, rfl⟩)
        | some b2 =>
          dsimp only
          have hc := tell_client h1
          refine Or.inr (Or.inr ⟨rfl, Or.inr ⟨hw', hc, b1, b2, ?_, ?_, ?_⟩⟩)
          · have := tell_true env j.id .text
            rw [h1] at this
            simpa [hc] using this
          · have := tell_true env j.id .badJob
            rw [h2] at this
            simpa [hc] using this
          · have e1 := note_db (note st j.id .text b1) j.id .badJob b2
            have e2 := note_db st j.id .text b1
            rw [e1.1, e2.1]
    · rw [if_neg hw]
      exact Or.inr (Or.inr ⟨rfl, Or.inl ⟨hw, rfl⟩⟩)

theorem fair_fail {env : Env} {db : DB} {st : St} (h : Fair env db st) {j : JobRow} (h0 : db.stateOf j.id = some "toError") :
    Fair env db (fail env j st).1 := by
  have hcur : st.db.stateOf j.id = some "toError" ∨ st.db.stateOf j.id = some "Error" := by
    rcases h.states j.id with a | a | a
    · rw [a]; exact Or.inl h0
    · exact Or.inr a.2
    · rw [h0] at a; simp at a
  have hset := fun i => stateOf_fail (db0 := db) (db := st.db) env.now i h0 hcur
  have noGood : ∀ i, i = j.id → (i, Msg.goodReservation) ∉ st.told := by
    rintro i rfl hh
    have := (h.good _ hh).1
    rw [h0] at this
    simp at this
  have hstates : ∀ (told : List (Nat × Msg)), (∀ x ∈ st.told, x ∈ told) → ∀ i, (setJobState st.db env.now j.id "Error").stateOf i = db.stateOf i ∨
      (db.stateOf i = some "toError" ∧ (setJobState st.db env.now j.id "Error").stateOf i = some "Error") ∨
      (db.stateOf i = some "toAckReservation" ∧ (setJobState st.db env.now j.id "Error").stateOf i = some "Waiting" ∧ (i, Msg.goodReservation) ∈ told) := by
    intro told ht i
    rw [hset]
    by_cases hi : i = j.id
    · rw [if_pos hi, hi]; exact Or.inr (Or.inl ⟨h0, rfl⟩)
    · rw [if_neg hi]
      rcases h.states i with a | a | ⟨a, b, c⟩
      · exact Or.inl a
      · exact Or.inr (Or.inl a)
      · exact Or.inr (Or.inr ⟨a, b, ht _ c⟩)
  rcases fail_cases env j st with ⟨_, e⟩ | ⟨_, _, hc, b1, e⟩ | ⟨_, ⟨_, e⟩ | ⟨_, hc, b1, b2, _, _, e⟩⟩
  · rw [e]; exact h
  · rw [e]
    have nd := note_db st j.id .text b1
    constructor
    · intro i; rw [nd.1, note_mem]
      rcases h.states i with a | a | ⟨a, b, c⟩
      · exact Or.inl a
      · exact Or.inr (Or.inl a)
      · exact Or.inr (Or.inr ⟨a, b, Or.inl c⟩)
    · intro i hi; rw [nd.1]
      rw [note_mem] at hi
      rcases hi with hi | ⟨_, hi⟩
      · exact h.good i hi
      · simp at hi
    · intro i hi; rw [nd.1]
      rw [note_mem] at hi
      rcases hi with hi | ⟨_, hi⟩
      · exact h.bad i hi
      · simp at hi
    · intro i hi
      rw [note_mem] at hi
      rcases hi with hi | ⟨_, hi⟩
      · exact h.text i hi
      · simp at hi; rw [hi]; exact ⟨h0, hc⟩
    · intro i hi
      rw [note_mem] at hi
      rcases hi with hi | ⟨_, hi⟩
      · exact h.prediction i hi
      · simp at hi
    · intro i hi; rw [nd.2.1] at hi; exact h.asked i hi
  · rw [e]
    constructor
    · exact hstates st.told (fun _ hx => hx)
    · intro i hi
      have := h.good i hi
      refine ⟨this.1, ?_, this.2.2⟩
      show (setJobState st.db env.now j.id "Error").stateOf i = _
      rw [hset, if_neg (fun hh => noGood i hh hi)]
      exact this.2.1
    · intro i hi
      have := h.bad i hi
      refine ⟨this.1, ?_, this.2.2⟩
      show (setJobState st.db env.now j.id "Error").stateOf i = _
      rw [hset]
      split
      · rfl
      · exact this.2.1
    · exact h.text
    · exact h.prediction
    · exact h.asked
  · rw [e]
    have hmem : ∀ x, x ∈ (note (note st j.id .text b1) j.id .badJob b2).told → x ∈ st.told ∨ x = (j.id, .text) ∨ x = (j.id, .badJob) := by
      intro x hx
      rw [note_mem, note_mem] at hx
      rcases hx with (hx | hx) | hx
      · exact Or.inl hx
      · exact Or.inr (Or.inl hx.2)
      · exact Or.inr (Or.inr hx.2)
    constructor
    · refine hstates _ (fun x hx => ?_)
      show x ∈ (note (note st j.id .text b1) j.id .badJob b2).told
      rw [note_mem, note_mem]
      exact Or.inl (Or.inl hx)
    · intro i hi
      rcases hmem _ hi with hi | hi | hi
      · have := h.good i hi
        refine ⟨this.1, ?_, this.2.2⟩
        show (setJobState st.db env.now j.id "Error").stateOf i = _
        rw [hset, if_neg (fun hh => noGood i hh hi)]
        exact this.2.1
      · simp at hi
      · simp at hi
    · intro i hi
      show _ ∧ (setJobState st.db env.now j.id "Error").stateOf i = _ ∧ _
      rw [hset]
      rcases hmem _ hi with hi | hi | hi
      · have := h.bad i hi
        refine ⟨this.1, ?_, this.2.2⟩
        split
        · rfl
        · exact this.2.1
      · simp at hi
      · simp at hi; rw [hi, if_pos rfl]; exact ⟨h0, rfl, hc⟩
    · intro i hi
      rcases hmem _ hi with hi | hi | hi
      · exact h.text i hi
      · simp at hi; rw [hi]; exact ⟨h0, hc⟩
      · simp at hi
    · intro i hi
      rcases hmem _ hi with hi | hi | hi
      · exact h.prediction i hi
      · simp at hi
      · simp at hi
    · intro i hi
      have e1 := note_db (note st j.id .text b1) j.id .badJob b2
      have e2 := note_db st j.id .text b1
      have hi' : i ∈ (note (note st j.id .text b1) j.id .badJob b2).asked := hi
      rw [e1.2.1, e2.2.1] at hi'
      exact h.asked i hi'

theorem ack_cases (env : Env) (j : JobRow) (st : St) : ((ack env j st).2 = false ∧ (ack env j st).1 = st) ∨
    ((ack env j st).2 = true ∧ HasClient env j.id ∧ (ack env j st).1 = ⟨setJobState st.db env.now j.id "Waiting", st.told ++ [(j.id, .goodReservation)], st.asked,
      if j.start - 1 ≤ env.now ∧ st.code = 0 then 1 else st.code⟩) := by
  unfold ack
  split
  · exact Or.inl ⟨rfl, rfl⟩
  · exact Or.inl ⟨rfl, rfl⟩
  · rename_i e; exact Or.inr ⟨rfl, tell_client e, rfl⟩

theorem fair_ack {env : Env} {db : DB} {st : St} (h : Fair env db st) {j : JobRow} (h0 : db.stateOf j.id = some "toAckReservation") :
    Fair env db (ack env j st).1 := by
  have hcur : st.db.stateOf j.id = some "toAckReservation" ∨ st.db.stateOf j.id = some "Waiting" := by
    rcases h.states j.id with a | a | a
    · rw [a]; exact Or.inl h0
    · rw [h0] at a; simp at a
    · exact Or.inr a.2.1
  have hset := fun i => stateOf_ack (db := st.db) env.now i hcur
  rcases ack_cases env j st with ⟨_, e⟩ | ⟨_, hc, e⟩
  · rw [e]; exact h
  · rw [e]
    constructor
    · intro i
      show (setJobState st.db env.now j.id "Waiting").stateOf i = _ ∨ _ ∨ _ ∧ (setJobState st.db env.now j.id "Waiting").stateOf i = _ ∧ _
      rw [hset]
      by_cases hi : i = j.id
      · rw [if_pos hi, hi]; exact Or.inr (Or.inr ⟨h0, rfl, by simp⟩)
      · rw [if_neg hi]
        rcases h.states i with a | a | ⟨a, b, c⟩
        · exact Or.inl a
        · exact Or.inr (Or.inl a)
        · exact Or.inr (Or.inr ⟨a, b, by simp [c]⟩)
    · intro i hi
      show _ ∧ (setJobState st.db env.now j.id "Waiting").stateOf i = _ ∧ _
      rw [hset]
      have hi' : (i, Msg.goodReservation) ∈ st.told ++ [(j.id, .goodReservation)] := hi
      by_cases hij : i = j.id
      · rw [if_pos hij, hij]; exact ⟨h0, rfl, hc⟩
      · rw [if_neg hij]
        simp [hij] at hi'
        exact h.good i hi'
    · intro i hi
      have hi' : (i, Msg.badJob) ∈ st.told ++ [(j.id, .goodReservation)] := hi
      simp at hi'
      have := h.bad i hi'
      show _ ∧ (setJobState st.db env.now j.id "Waiting").stateOf i = _ ∧ _
      rw [hset, if_neg (fun hh => by rw [hh, h0] at this; simp at this)]
      exact this
    · intro i hi
      have hi' : (i, Msg.text) ∈ st.told ++ [(j.id, .goodReservation)] := hi
      simp at hi'
      exact h.text i hi'
    · intro i hi
      have hi' : (i, Msg.prediction) ∈ st.told ++ [(j.id, .goodReservation)] := hi
      simp at hi'
      exact h.prediction i hi'
    · exact h.asked

theorem fair_launch {env : Env} {db : DB} {st : St} (h : Fair env db st) {j : JobRow} (hj : j ∈ db.jobs) (hs : j.state = "toLaunch") :
    Fair env db (launch env j st).1 := by
  unfold launch
  split
  · exact h
  · rename_i ht
    split
    · refine ⟨h.states, h.good, h.bad, h.text, h.prediction, ?_⟩
      intro i hi
      have hi' : i ∈ st.asked ++ [j.id] := hi
      simp at hi'
      rcases hi' with hi' | rfl
      · exact h.asked i hi'
      · exact ⟨ht, j, hj, rfl, hs⟩
    · exact h

theorem fair_start (env : Env) (db : DB) (code : Int) : Fair env db ⟨db, [], [], code⟩ :=
  ⟨fun _ => Or.inl rfl, by simp, by simp, by simp, by simp, by simp⟩

theorem fair_begun (env : Env) (code : Int) (db : DB) : Fair env db (begun env code db).1 := by
  unfold begun
  apply andThen_inv (I := fun s => Fair env db s ∧ s.db.jobs = db.jobs) (x := each (resume env) (inState db "Resuming") ⟨db, [], [], code⟩) _ _ |>.1
  · refine ⟨each_inv (resume env) _ _ _ (fun j _ s hs => fair_resume hs j) (fair_start env db code), (resumed_frame env code db _).1⟩
  · intro s hs
    apply each_inv (predict env) (fun s => Fair env db s ∧ s.db.jobs = db.jobs)
    · intro j hj s hs'
      rw [interactive_jobs hs.2, mem_interactive] at hj
      exact ⟨fair_predict hs'.1 hj.1 hj.2, by rw [(predict_frame env j s).1]; exact hs'.2⟩
    · exact hs

/-- Whatever the exceptions: the answers are those of the states, and the states change with the answers. -/
theorem finish_fair (env : Env) (code : Int) {db : DB} (hu : Unique db) : Fair env db (finish env code db).1 := by
  rw [finish_begun]
  apply andThen_inv
  · apply andThen_inv
    · apply andThen_inv
      · exact fair_begun env code db
      · intro s hs
        refine each_inv (fail env) _ _ _ (fun j hj s hs => ?_) hs
        rw [mem_inState] at hj
        exact fair_fail hs (by rw [stateOf_mem hu hj.1, hj.2])
    · intro s hs
      refine each_inv (ack env) _ _ _ (fun j hj s hs => ?_) hs
      rw [mem_inState] at hj
      exact fair_ack hs (by rw [stateOf_mem hu hj.1, hj.2])
  · intro s hs
    refine each_inv (launch env) _ _ _ (fun j hj s hs => ?_) hs
    rw [mem_inState] at hj
    exact fair_launch hs hj.1 hj.2

/-! ### A round without exception -/

theorem fragged_frags {a b : DB} (h : a.frags = b.frags) (i : Nat) : Fragged a i ↔ Fragged b i := by
  unfold Fragged
  rw [h]

theorem error_stays {db : DB} {i : Nat} (h : db.stateOf i = some "Error") (now : Int) (x : Nat) (s : String) : (setJobState db now x s).stateOf i = some "Error" := by
  by_cases hx : x = i
  · subst hx
    rw [stateOf_setJobState, h]
    rfl
  · rw [stateOf_setJobState_other db now hx, h]

theorem script_step {env : Env} {db : DB} {j : JobRow} {st : St} (hadm : env.user = "oar" ∨ env.user = "root") (hjobs : st.db.jobs = db.jobs)
    (hj : j ∈ db.jobs) (hs : j.state = "Resuming") (hok : (resume env j st).2 = true) (i : Nat) :
    Fragged (resume env j st).1.db i ↔ Fragged st.db i ∨ (j.id = i ∧ ∃ f, RunsScript env db j f ∧ f i ≠ some 0) := by
  have ho := otherJobs_iff env st.db j
  rw [hjobs] at ho
  have hr := resources_iff env j
  have hj' : j ∈ st.db.jobs := by rw [hjobs]; exact hj
  unfold resume at hok ⊢
  by_cases h1 : otherJobs env st.db j ≠ []
  · rw [if_pos h1]
    have h2 := ho.1 h1
    constructor
    · exact Or.inl
    · rintro (h | ⟨_, f, hf, _⟩)
      · exact h
      · obtain ⟨_, k, hk, hne, hb⟩ := h2
        exact absurd hb (hf.2.1 k hk hne)
  · rw [if_neg h1] at hok ⊢
    by_cases h2 : (env.assigned.all (fun a => a.1 != j.assigned)) = true
    · rw [if_pos h2] at hok; cases hok
    · rw [if_neg h2] at hok ⊢
      have hres : HasResources env j := hr.1 (by simpa using h2)
      by_cases h3 : "noop" ∈ j.types
      · rw [if_pos h3] at hok; cases hok
      · rw [if_neg h3] at hok ⊢
        cases h4 : env.script with
        | none => rw [h4] at hok; cases hok
        | some f =>
          dsimp only
          have hrun : RunsScript env db j f := by
            refine ⟨hs, ?_, hres, h3, h4⟩
            intro k hk hne hb
            exact h1 (ho.2 ⟨hres, k, hk, hne, hb⟩)
          have huniq : ∀ g, RunsScript env db j g → g = f := by
            intro g hg
            have := hg.2.2.2.2
            rw [h4] at this
            simpa using this.symm
          cases h5 : f j.id with
          | none =>
            dsimp only
            rw [fragged_jobs hadm (by exact hj')]
            show Fragged st.db i ∨ _ ↔ _
            constructor
            · rintro (h | rfl)
              · exact Or.inl h
              · exact Or.inr ⟨rfl, f, hrun, by rw [h5]; simp⟩
            · rintro (h | ⟨h, _⟩)
              · exact Or.inl h
              · exact Or.inr h.symm
          | some rc =>
            dsimp only
            by_cases hrc : rc = 0
            · rw [if_pos hrc]
              constructor
              · exact Or.inl
              · rintro (h | ⟨rfl, g, hg, hne⟩)
                · exact h
                · rw [huniq g hg, h5, hrc] at hne
                  exact absurd rfl hne
            · rw [if_neg hrc]
              dsimp only
              rw [fragged_jobs hadm (by exact hj')]
              show Fragged st.db i ∨ _ ↔ _
              constructor
              · rintro (h | rfl)
                · exact Or.inl h
                · exact Or.inr ⟨rfl, f, hrun, by rw [h5]; simpa using hrc⟩
              · rintro (h | ⟨h, _⟩)
                · exact Or.inl h
                · exact Or.inr h.symm

theorem predict_step {env : Env} {j : JobRow} {st : St} (hadm : env.user = "oar" ∨ env.user = "root")
    (hj : j ∈ st.db.jobs) (hok : (predict env j st).2 = true) :
    (∀ i, Fragged (predict env j st).1.db i ↔ Fragged st.db i ∨ (j.id = i ∧ env.net i .prediction = .refused)) ∧
    (∀ x, x ∈ (predict env j st).1.told ↔ x ∈ st.told ∨ (x = (j.id, .prediction) ∧ env.net j.id .prediction = .received)) := by
  unfold predict at hok ⊢
  cases h : tell env j.id .prediction with
  | none => rw [h] at hok; cases hok
  | some b =>
    cases b with
    | true =>
      have hn := ((tell_true env j.id .prediction).1 h).2
      dsimp only
      constructor
      · intro i
        constructor
        · exact Or.inl
        · rintro (hh | ⟨rfl, hh⟩)
          · exact hh
          · rw [hn] at hh; cases hh
      · intro x
        simp [hn]
    | false =>
      have hn := ((tell_false env j.id .prediction).1 h).2
      dsimp only
      constructor
      · intro i
        rw [fragged_jobs hadm (by exact hj)]
        show Fragged st.db i ∨ _ ↔ _
        constructor
        · rintro (hh | rfl)
          · exact Or.inl hh
          · exact Or.inr ⟨rfl, hn⟩
        · rintro (hh | ⟨hh, _⟩)
          · exact Or.inl hh
          · exact Or.inr hh.symm
      · intro x
        simp [hn]

theorem begun_answers {env : Env} {code : Int} {db : DB} (hadm : env.user = "oar" ∨ env.user = "root") (hok : (begun env code db).2 = true) :
    (∀ i m, (i, m) ∈ (begun env code db).1.told ↔ env.net i m = .received ∧ m = .prediction ∧ ∃ j ∈ db.jobs, j.id = i ∧ Predicted env j) ∧
    (∀ i, Fragged (begun env code db).1.db i ↔ Fragged db i ∨ ∃ j ∈ db.jobs, j.id = i ∧
      ((Predicted env j ∧ env.net i .prediction = .refused) ∨ ∃ f, RunsScript env db j f ∧ f i ≠ some 0)) := by
  have hok' := hok
  unfold begun at hok ⊢
  rw [andThen_true] at hok
  obtain ⟨h1, h2⟩ := hok
  rw [andThen_eq h1]
  have fr := resumed_frame env code db (inState db "Resuming")
  rw [interactive_jobs (env := env) fr.1] at h2 ⊢
  have r1 := each_done (resume env) (fun a s => s.db.jobs = db.jobs ∧ ∀ i, Fragged s.db i ↔ Fragged db i ∨ ∃ j ∈ a, j.id = i ∧ ∃ f, RunsScript env db j f ∧ f i ≠ some 0)
    (inState db "Resuming") [] ⟨db, [], [], code⟩ (by
      intro a j b s e hs hb
      have hj : j ∈ inState db "Resuming" := by
        rw [List.nil_append] at e; rw [e]; simp
      rw [mem_inState] at hj
      refine ⟨by rw [(resume_frame env j s).1]; exact hs.1, fun i => ?_⟩
      rw [script_step hadm hs.1 hj.1 hj.2 hb, hs.2]
      constructor
      · rintro ((h | ⟨k, hk, h⟩) | h)
        · exact Or.inl h
        · exact Or.inr ⟨k, by simp [hk], h⟩
        · exact Or.inr ⟨j, by simp, h⟩
      · rintro (h | ⟨k, hk, h⟩)
        · exact Or.inl (Or.inl h)
        · simp at hk
          rcases hk with hk | rfl
          · exact Or.inl (Or.inr ⟨k, hk, h⟩)
          · exact Or.inr h) ⟨rfl, fun i => by simp⟩ h1
  rw [List.nil_append] at r1
  generalize each (resume env) (inState db "Resuming") ⟨db, [], [], code⟩ = x at *
  have r2 := each_done (predict env) (fun a s => s.db.jobs = db.jobs ∧ (∀ i, Fragged s.db i ↔ Fragged x.1.db i ∨ ∃ j ∈ a, j.id = i ∧ env.net i .prediction = .refused) ∧
      ∀ y, y ∈ s.told ↔ ∃ j ∈ a, y = (j.id, Msg.prediction) ∧ env.net j.id .prediction = .received)
    (interactive env db) [] x.1 (by
      intro a j b s e hs hb
      have hj : j ∈ interactive env db := by
        rw [List.nil_append] at e; rw [e]; simp
      rw [mem_interactive] at hj
      have st := predict_step hadm (by rw [hs.1]; exact hj.1) hb
      refine ⟨by rw [(predict_frame env j s).1]; exact hs.1, fun i => ?_, fun y => ?_⟩
      · rw [st.1, hs.2.1]
        constructor
        · rintro ((h | ⟨k, hk, h⟩) | h)
          · exact Or.inl h
          · exact Or.inr ⟨k, by simp [hk], h⟩
          · exact Or.inr ⟨j, by simp, h⟩
        · rintro (h | ⟨k, hk, h⟩)
          · exact Or.inl (Or.inl h)
          · simp at hk
            rcases hk with hk | rfl
            · exact Or.inl (Or.inr ⟨k, hk, h⟩)
            · exact Or.inr h
      · rw [st.2, hs.2.2]
        constructor
        · rintro (⟨k, hk, h⟩ | h)
          · exact ⟨k, by simp [hk], h⟩
          · exact ⟨j, by simp, h⟩
        · rintro ⟨k, hk, h⟩
          simp at hk
          rcases hk with hk | rfl
          · exact Or.inl ⟨k, hk, h⟩
          · exact Or.inr h) ⟨fr.1, fun i => by simp, fun y => by rw [fr.2.1]; simp⟩ h2
  rw [List.nil_append] at r2
  constructor
  · intro i m
    rw [r2.2.2]
    constructor
    · rintro ⟨j, hj, e, hn⟩
      simp at e
      obtain ⟨rfl, rfl⟩ := e
      rw [mem_interactive] at hj
      exact ⟨hn, rfl, j, hj.1, rfl, hj.2⟩
    · rintro ⟨hn, rfl, j, hj, rfl, hp⟩
      exact ⟨j, (mem_interactive env db j).2 ⟨hj, hp⟩, rfl, hn⟩
  · intro i
    rw [r2.2.1, r1.2]
    constructor
    · rintro ((h | ⟨j, hj, e, h⟩) | ⟨j, hj, e, h⟩)
      · exact Or.inl h
      · exact Or.inr ⟨j, ((mem_inState _ _ _).1 hj).1, e, Or.inr h⟩
      · have := (mem_interactive env db j).1 hj
        exact Or.inr ⟨j, this.1, e, Or.inl ⟨this.2, h⟩⟩
    · rintro (h | ⟨j, hj, e, ⟨hp, h⟩ | ⟨f, hf, h⟩⟩)
      · exact Or.inl (Or.inl h)
      · exact Or.inr ⟨j, (mem_interactive env db j).2 ⟨hj, hp⟩, e, h⟩
      · exact Or.inl (Or.inr ⟨j, (mem_inState _ _ _).2 ⟨hj, hf.1⟩, e, f, hf, h⟩)

theorem failed_answers {env : Env} {l : List JobRow} {s0 : St} (hok : (each (fail env) l s0).2 = true) :
    (∀ i, s0.db.stateOf i = some "Error" → (each (fail env) l s0).1.db.stateOf i = some "Error") ∧
    (∀ j ∈ l, s0.db.stateOf j.id = some "toError" → (each (fail env) l s0).1.db.stateOf j.id = some "Error") ∧
    (∀ i m, (i, m) ∈ (each (fail env) l s0).1.told ↔ (i, m) ∈ s0.told ∨ (env.net i m = .received ∧ (m = .text ∨ m = .badJob) ∧ ∃ j ∈ l, j.id = i ∧ Waits j)) ∧
    (each (fail env) l s0).1.db.frags = s0.db.frags ∧ (each (fail env) l s0).1.asked = s0.asked ∧ (each (fail env) l s0).1.code = s0.code := by
  have r := each_done (fail env) (fun a s =>
    (∀ i, s0.db.stateOf i = some "Error" → s.db.stateOf i = some "Error") ∧
    (∀ i, s0.db.stateOf i = some "toError" → s.db.stateOf i = some "Error" ∨ (s.db.stateOf i = some "toError" ∧ ∀ j ∈ a, j.id ≠ i)) ∧
    (∀ i m, (i, m) ∈ s.told ↔ (i, m) ∈ s0.told ∨ (env.net i m = .received ∧ (m = .text ∨ m = .badJob) ∧ ∃ j ∈ a, j.id = i ∧ Waits j)) ∧
    s.db.frags = s0.db.frags ∧ s.asked = s0.asked ∧ s.code = s0.code) l [] s0 (by
      intro a j b s _ hs hb
      have hstate : ∀ i, s0.db.stateOf i = some "toError" → (setJobState s.db env.now j.id "Error").stateOf i = some "Error" ∨
          ((setJobState s.db env.now j.id "Error").stateOf i = some "toError" ∧ ∀ k ∈ a ++ [j], k.id ≠ i) := by
        intro i h0
        rcases hs.2.1 i h0 with h | ⟨h, hn⟩
        · exact Or.inl (error_stays h _ _ _)
        · by_cases hij : j.id = i
          · subst hij
            left
            rw [stateOf_setJobState, h]
            rfl
          · right
            refine ⟨by rw [stateOf_setJobState_other _ _ hij]; exact h, ?_⟩
            intro k hk
            simp at hk
            rcases hk with hk | rfl
            · exact hn k hk
            · exact hij
      rcases fail_cases env j s with ⟨hb', _⟩ | ⟨hb', _⟩ | ⟨_, ⟨hw, e⟩ | ⟨hw, hc, b1, b2, hb1, hb2, e⟩⟩
      · rw [hb] at hb'; cases hb'
      · rw [hb] at hb'; cases hb'
      · rw [e]
        refine ⟨fun i hi => error_stays (hs.1 i hi) _ _ _, hstate, fun i m => ?_, ?_, hs.2.2.2.2.1, hs.2.2.2.2.2⟩
        · rw [hs.2.2.1]
          constructor
          · rintro (h | ⟨h1, h2, k, hk, h3⟩)
            · exact Or.inl h
            · exact Or.inr ⟨h1, h2, k, by simp [hk], h3⟩
          · rintro (h | ⟨h1, h2, k, hk, h3, h4⟩)
            · exact Or.inl h
            · simp at hk
              rcases hk with hk | rfl
              · exact Or.inr ⟨h1, h2, k, hk, h3, h4⟩
              · exact absurd h4 hw
        · show (setJobState s.db env.now j.id "Error").frags = _
          rw [setJobState_frags]; exact hs.2.2.2.1
      · have e1 := note_db (note s j.id .text b1) j.id .badJob b2
        have e2 := note_db s j.id .text b1
        rw [e]
        refine ⟨fun i hi => error_stays (hs.1 i hi) _ _ _, hstate, fun i m => ?_, ?_, ?_, ?_⟩
        · show (i, m) ∈ (note (note s j.id .text b1) j.id .badJob b2).told ↔ _
          rw [note_mem, note_mem, hs.2.2.1, hb1, hb2]
          constructor
          · rintro (((h | ⟨h1, h2, k, hk, h3⟩) | ⟨hn, h⟩) | ⟨hn, h⟩)
            · exact Or.inl h
            · exact Or.inr ⟨h1, h2, k, by simp [hk], h3⟩
            · simp at h
              obtain ⟨rfl, rfl⟩ := h
              exact Or.inr ⟨hn, Or.inl rfl, j, by simp, rfl, hw⟩
            · simp at h
              obtain ⟨rfl, rfl⟩ := h
              exact Or.inr ⟨hn, Or.inr rfl, j, by simp, rfl, hw⟩
          · rintro (h | ⟨h1, h2, k, hk, h3, h4⟩)
            · exact Or.inl (Or.inl (Or.inl h))
            · simp at hk
              rcases hk with hk | rfl
              · exact Or.inl (Or.inl (Or.inr ⟨h1, h2, k, hk, h3, h4⟩))
              · rcases h2 with rfl | rfl
                · exact Or.inl (Or.inr ⟨by rw [h3]; exact h1, by rw [h3]⟩)
                · exact Or.inr ⟨by rw [h3]; exact h1, by rw [h3]⟩
        · show (setJobState s.db env.now j.id "Error").frags = _
          rw [setJobState_frags]; exact hs.2.2.2.1
        · show (note (note s j.id .text b1) j.id .badJob b2).asked = _
          rw [e1.2.1, e2.2.1]; exact hs.2.2.2.2.1
        · show (note (note s j.id .text b1) j.id .badJob b2).code = _
          rw [e1.2.2, e2.2.2]; exact hs.2.2.2.2.2) ⟨fun _ h => h, fun i h => Or.inr ⟨h, by simp⟩, fun i m => by simp, rfl, rfl, rfl⟩ hok
  rw [List.nil_append] at r
  refine ⟨r.1, ?_, r.2.2⟩
  intro j hj h0
  rcases r.2.1 _ h0 with h | ⟨_, h⟩
  · exact h
  · exact absurd rfl (h j hj)

theorem acked_answers {env : Env} {l : List JobRow} {s0 : St} (hok : (each (ack env) l s0).2 = true) :
    (∀ i, s0.db.stateOf i = some "Error" → (each (ack env) l s0).1.db.stateOf i = some "Error") ∧
    (∀ i m, (i, m) ∈ (each (ack env) l s0).1.told ↔ (i, m) ∈ s0.told ∨ (env.net i m = .received ∧ m = .goodReservation ∧ ∃ j ∈ l, j.id = i)) ∧
    (each (ack env) l s0).1.db.frags = s0.db.frags ∧ (each (ack env) l s0).1.asked = s0.asked ∧
    (s0.code ≠ 0 → (each (ack env) l s0).1.code = s0.code) ∧
    (s0.code = 0 → (∃ j ∈ l, j.start ≤ env.now + 1) → (each (ack env) l s0).1.code = 1) ∧
    (s0.code = 0 → (¬ ∃ j ∈ l, j.start ≤ env.now + 1) → (each (ack env) l s0).1.code = 0) := by
  have r := each_done (ack env) (fun a s =>
    (∀ i, s0.db.stateOf i = some "Error" → s.db.stateOf i = some "Error") ∧
    (∀ i m, (i, m) ∈ s.told ↔ (i, m) ∈ s0.told ∨ (env.net i m = .received ∧ m = .goodReservation ∧ ∃ j ∈ a, j.id = i)) ∧
    s.db.frags = s0.db.frags ∧ s.asked = s0.asked ∧ (s0.code ≠ 0 → s.code = s0.code) ∧
    (s0.code = 0 → (∃ j ∈ a, j.start ≤ env.now + 1) → s.code = 1) ∧
    (s0.code = 0 → (¬ ∃ j ∈ a, j.start ≤ env.now + 1) → s.code = 0)) l [] s0 (by
      intro a j b s _ hs hb
      have hnet := (ack_ok env j s).1 hb
      rcases ack_cases env j s with ⟨hb', _⟩ | ⟨_, hc, e⟩
      · rw [hb] at hb'; cases hb'
      · rw [e]
        refine ⟨fun i hi => error_stays (hs.1 i hi) _ _ _, fun i m => ?_, ?_, hs.2.2.2.1, ?_, ?_, ?_⟩
        · show (i, m) ∈ s.told ++ [(j.id, .goodReservation)] ↔ _
          rw [List.mem_append, hs.2.1]
          constructor
          · rintro ((h | ⟨h1, h2, k, hk, h3⟩) | h)
            · exact Or.inl h
            · exact Or.inr ⟨h1, h2, k, by simp [hk], h3⟩
            · simp at h
              obtain ⟨rfl, rfl⟩ := h
              exact Or.inr ⟨hnet.2, rfl, j, by simp, rfl⟩
          · rintro (h | ⟨h1, h2, k, hk, h3⟩)
            · exact Or.inl (Or.inl h)
            · simp at hk
              rcases hk with hk | rfl
              · exact Or.inl (Or.inr ⟨h1, h2, k, hk, h3⟩)
              · exact Or.inr (by rw [h2, h3]; simp)
        · show (setJobState s.db env.now j.id "Waiting").frags = _
          rw [setJobState_frags]; exact hs.2.2.1
        · intro h
          show (if j.start - 1 ≤ env.now ∧ s.code = 0 then 1 else s.code) = _
          have := hs.2.2.2.2.1 h
          rw [this, if_neg (fun hh => h hh.2)]
        · intro h hex
          show (if j.start - 1 ≤ env.now ∧ s.code = 0 then 1 else s.code) = _
          by_cases hx : ∃ k ∈ a, k.start ≤ env.now + 1
          · have := hs.2.2.2.2.2.1 h hx
            rw [this]
            simp
          · have := hs.2.2.2.2.2.2 h hx
            rw [this]
            obtain ⟨k, hk, hk'⟩ := hex
            simp at hk
            rcases hk with hk | rfl
            · exact absurd ⟨k, hk, hk'⟩ hx
            · rw [if_pos ⟨by omega, rfl⟩]
        · intro h hex
          show (if j.start - 1 ≤ env.now ∧ s.code = 0 then 1 else s.code) = _
          have hx : ¬ ∃ k ∈ a, k.start ≤ env.now + 1 := fun ⟨k, hk, hk'⟩ => hex ⟨k, by simp [hk], hk'⟩
          have := hs.2.2.2.2.2.2 h hx
          rw [this, if_neg]
          intro hh
          exact hex ⟨j, by simp, by omega⟩) ⟨fun _ h => h, fun i m => by simp, rfl, rfl, fun _ => rfl, fun _ h => by simp at h, fun h _ => h⟩ hok
  rw [List.nil_append] at r
  exact r

theorem launched_answers (env : Env) : ∀ (l : List JobRow) (s0 : St), (each (launch env) l s0).1.db = s0.db ∧ (each (launch env) l s0).1.told = s0.told ∧
    (each (launch env) l s0).1.code = s0.code ∧
    (each (launch env) l s0).1.asked = s0.asked ++ (l.filter (fun j => !env.treated.contains j.id && env.commander j.id)).map (·.id)
  | [], s0 => by simp [each]
  | j :: l, s0 => by
    unfold each
    rw [if_pos (launch_ok env j s0)]
    have ih := launched_answers env l (launch env j s0).1
    rw [ih.1, ih.2.1, ih.2.2.1, ih.2.2.2]
    unfold launch
    by_cases h1 : j.id ∈ env.treated
    · rw [if_pos h1]
      simp [h1]
    · rw [if_neg h1]
      by_cases h2 : env.commander j.id = true
      · rw [if_pos h2]
        simp [h1, h2]
      · rw [if_neg h2]
        simp [h1, h2]

/-- A round without exception gives all the answers, and only them. -/
theorem answers {env : Env} {code : Int} {db : DB} (hu : Unique db) (hadm : env.user = "oar" ∨ env.user = "root") (hc : Completes env db) :
    Answers env code db (finish env code db).1 := by
  have hfair := finish_fair env code hu
  have hok := (completes_iff env code db).2 hc
  have hcl := hc.2.2.2
  rw [finish_begun] at hok hfair ⊢
  rw [andThen_true] at hok
  obtain ⟨hok, -⟩ := hok
  have hok4 := hok
  rw [andThen_true] at hok
  obtain ⟨hok3, ha⟩ := hok
  have hok3' := hok3
  rw [andThen_true] at hok3
  obtain ⟨hok2, hf⟩ := hok3
  have b := begun_answers hadm hok2
  have bf := begun_frame env code db
  have bs := fun i => stateOf_jobs bf.1 i
  rw [andThen_eq hok4] at hfair ⊢
  rw [andThen_eq hok3'] at hfair ⊢
  rw [andThen_eq hok2] at hfair ha ⊢
  clear hok4 hok3'
  generalize begun env code db = x at *
  have f := failed_answers hf
  generalize each (fail env) (inState db "toError") x.1 = y at *
  have a := acked_answers ha
  generalize each (ack env) (inState db "toAckReservation") y.1 = z at *
  have l := launched_answers env (inState db "toLaunch") z.1
  have told : ∀ i m, (i, m) ∈ (each (launch env) (inState db "toLaunch") z.1).1.told ↔ env.net i m = .received ∧ ∃ j ∈ db.jobs, j.id = i ∧ Due env j m := by
    intro i m
    rw [l.2.1, a.2.1, f.2.2.1, b.1]
    constructor
    · rintro ((⟨hn, rfl, j, hj, e, hp⟩ | ⟨hn, hm, j, hj, e, hw⟩) | ⟨hn, rfl, j, hj, e⟩)
      · exact ⟨hn, j, hj, e, hp⟩
      · rw [mem_inState] at hj
        refine ⟨hn, j, hj.1, e, ?_⟩
        rcases hm with rfl | rfl
        · exact ⟨hj.2, hw⟩
        · exact ⟨hj.2, hw⟩
      · rw [mem_inState] at hj
        exact ⟨hn, j, hj.1, e, hj.2⟩
    · rintro ⟨hn, j, hj, e, hd⟩
      cases m with
      | prediction => exact Or.inl (Or.inl ⟨hn, rfl, j, hj, e, hd⟩)
      | text => exact Or.inl (Or.inr ⟨hn, Or.inl rfl, j, (mem_inState _ _ _).2 ⟨hj, hd.1⟩, e, hd.2⟩)
      | badJob => exact Or.inl (Or.inr ⟨hn, Or.inr rfl, j, (mem_inState _ _ _).2 ⟨hj, hd.1⟩, e, hd.2⟩)
      | goodReservation => exact Or.inr ⟨hn, rfl, j, (mem_inState _ _ _).2 ⟨hj, hd⟩, e⟩
  constructor
  · intro i
    cases h0 : db.job? i with
    | none =>
      have hnone : db.stateOf i = none := by unfold DB.stateOf; rw [h0]; rfl
      rcases hfair.states i with h | h | h
      · rw [h, hnone]; rfl
      · rw [hnone] at h; simp at h
      · rw [hnone] at h; simp at h
    | some j =>
      obtain ⟨hj, rfl⟩ := job?_some h0
      have hst := stateOf_mem hu hj
      by_cases he : j.state = "toError"
      · have h1 : y.1.db.stateOf j.id = some "Error" := f.2.1 j ((mem_inState _ _ _).2 ⟨hj, he⟩) (by rw [bs, hst, he])
        rw [stateOf_jobs (db := z.1.db) (by rw [l.1]), a.1 j.id h1, hst, he]
        rfl
      · by_cases hk : j.state = "toAckReservation"
        · have hcj := hcl j hj hk
          have h1 := (told j.id .goodReservation).2 ⟨hcj.2, j, hj, rfl, hk⟩
          rw [(hfair.good _ h1).2.1, hst, hk]
          rfl
        · rcases hfair.states j.id with h | h | h
          · rw [h, hst]
            simp only [Option.map_some, Option.some.injEq]
            unfold answered
            split
            · contradiction
            · contradiction
            · rfl
          · rw [hst] at h; simp at h; exact absurd h.1 he
          · rw [hst] at h; simp at h; exact absurd h.1 hk
  · exact told
  · intro i
    rw [fragged_frags (b := x.1.db) (by rw [l.1, a.2.2.1, f.2.2.2.1])]
    exact b.2 i
  · rw [l.2.2.2, a.2.2.2.1, f.2.2.2.2.1, bf.2.1, List.nil_append]
    unfold inState
    rw [List.filter_filter]
    congr 1
    apply List.filter_congr
    intro j _
    cases (j.state == "toLaunch") <;> simp
  · intro h
    rw [l.2.2.1, a.2.2.2.2.1 (by rw [f.2.2.2.2.2, bf.2.2]; exact h), f.2.2.2.2.2, bf.2.2]
  · rintro h ⟨j, hj, hs, hl⟩
    rw [l.2.2.1]
    exact a.2.2.2.2.2.1 (by rw [f.2.2.2.2.2, bf.2.2]; exact h) ⟨j, (mem_inState _ _ _).2 ⟨hj, hs⟩, hl⟩
  · intro h hn
    rw [l.2.2.1]
    refine a.2.2.2.2.2.2 (by rw [f.2.2.2.2.2, bf.2.2]; exact h) ?_
    rintro ⟨j, hj, hl⟩
    rw [mem_inState] at hj
    exact hn ⟨j, hj.1, hj.2, hl⟩

/-! ### What an exception leaves -/

theorem asked_nil (env : Env) (code : Int) (db : DB) :
    (andThen (andThen (begun env code db) (each (fail env) (inState db "toError"))) (each (ack env) (inState db "toAckReservation"))).1.asked = [] := by
  apply andThen_inv (I := fun s => s.asked = [])
  · apply andThen_inv (I := fun s => s.asked = [])
    · exact (begun_frame env code db).2.1
    · intro s hs
      refine each_inv (fail env) (fun s => s.asked = []) _ _ (fun j _ s hs => ?_) hs
      rcases fail_cases env j s with ⟨_, e⟩ | ⟨_, _, _, b1, e⟩ | ⟨_, ⟨_, e⟩ | ⟨_, _, b1, b2, _, _, e⟩⟩
      · rw [e]; exact hs
      · rw [e, (note_db s j.id .text b1).2.1]; exact hs
      · rw [e]; exact hs
      · rw [e]
        show (note (note s j.id .text b1) j.id .badJob b2).asked = []
        rw [(note_db _ _ _ _).2.1, (note_db _ _ _ _).2.1]; exact hs
  · intro s hs
    refine each_inv (ack env) (fun s => s.asked = []) _ _ (fun j _ s hs => ?_) hs
    rcases ack_cases env j s with ⟨_, e⟩ | ⟨_, _, e⟩
    · rw [e]; exact hs
    · rw [e]; exact hs

/-- After an exception, no launching is asked. -/
theorem exception_nothing_asked {env : Env} {code : Int} {db : DB} (h : (finish env code db).2 = false) : (finish env code db).1.asked = [] := by
  rw [finish_begun] at h ⊢
  have ha := asked_nil env code db
  generalize andThen (andThen (begun env code db) (each (fail env) (inState db "toError"))) (each (ack env) (inState db "toAckReservation")) = x at *
  unfold andThen at h ⊢
  by_cases hx : x.2 = true
  · rw [if_pos hx] at h
    have : (each (launch env) (inState db "toLaunch") x.1).2 = true :=
      (each_iff (launch env) (fun _ => True) (fun _ => True) _ _ (fun _ _ _ _ => trivial) (fun j _ s _ => by simp [launch_ok]) trivial).2 (fun _ _ => trivial)
    rw [this] at h
    cases h
  · rw [if_neg hx]; exact ha

/-- VIOLATION. An accepted reservation whose user cannot be told keeps its state (its deletion is not asked), and no launching is asked in this round. -/
theorem lost_reservation {env : Env} {code : Int} {db : DB} (hu : Unique db) {j : JobRow} (hj : j ∈ db.jobs) (hs : j.state = "toAckReservation")
    (hlost : ¬ (HasClient env j.id ∧ env.net j.id .goodReservation = .received)) :
    (finish env code db).2 = false ∧ (finish env code db).1.db.stateOf j.id = some "toAckReservation" ∧ (finish env code db).1.asked = [] := by
  have hf : (finish env code db).2 = false := by
    cases h : (finish env code db).2 with
    | false => rfl
    | true => exact absurd (((completes_iff env code db).1 h).2.2.2 j hj hs) hlost
  have key : ∀ s : St, s.db.stateOf j.id = some "toAckReservation" → ∀ l : List JobRow, (∀ k ∈ l, k ∈ db.jobs) → (each (ack env) l s).1.db.stateOf j.id = some "toAckReservation" := by
    intro s hs' l hl
    refine each_inv (ack env) (fun s => s.db.stateOf j.id = some "toAckReservation") _ _ (fun k hk s hs => ?_) hs'
    rcases ack_cases env k s with ⟨_, e⟩ | ⟨hb, _, e⟩
    · rw [e]; exact hs
    · rw [e]
      have hne : k.id ≠ j.id := by
        intro e
        have := (ack_ok env k s).1 hb
        rw [e] at this
        exact hlost this
      show (setJobState s.db env.now k.id "Waiting").stateOf j.id = _
      rw [stateOf_setJobState_other _ _ hne]
      exact hs
  refine ⟨hf, ?_, exception_nothing_asked hf⟩
  have h0 := stateOf_mem hu hj
  rw [hs] at h0
  rw [finish_begun]
  apply andThen_inv (I := fun s => s.db.stateOf j.id = some "toAckReservation")
  · apply andThen_inv (I := fun s => s.db.stateOf j.id = some "toAckReservation")
    · apply andThen_inv (I := fun s => s.db.stateOf j.id = some "toAckReservation")
      · rw [stateOf_jobs (begun_frame env code db).1]; exact h0
      · intro s hs'
        refine each_inv (fail env) (fun s => s.db.stateOf j.id = some "toAckReservation") _ _ (fun k hk s hs'' => ?_) hs'
        rw [mem_inState] at hk
        have hne : k.id ≠ j.id := by
          intro e
          have h1 := stateOf_mem hu hk.1
          rw [e, h0, hk.2] at h1
          simp at h1
        have hset : (setJobState s.db env.now k.id "Error").stateOf j.id = some "toAckReservation" := by
          rw [stateOf_setJobState_other _ _ hne]; exact hs''
        rcases fail_cases env k s with ⟨_, e⟩ | ⟨_, _, _, b1, e⟩ | ⟨_, ⟨_, e⟩ | ⟨_, _, b1, b2, _, _, e⟩⟩
        · rw [e]; exact hs''
        · rw [e, (note_db _ _ _ _).1]; exact hs''
        · rw [e]; exact hset
        · rw [e]; exact hset
    · intro s hs'
      exact key s hs' _ (fun k hk => ((mem_inState _ _ _).1 hk).1)
  · intro s hs'
    rw [(launched_answers env _ s).1]; exact hs'

/-- Many rounds, the tables left as they are between them. -/
def rounds : List (Env × Int) → DB → List Nat × DB
  | [], db => ([], db)
  | x :: l, db => ((finish x.1 x.2 db).1.asked ++ (rounds l (finish x.1 x.2 db).1.db).1, (rounds l (finish x.1 x.2 db).1.db).2)

theorem ids_setJobState (db : DB) (now : Int) (i : Nat) (s : String) : (setJobState db now i s).jobs.map (·.id) = db.jobs.map (·.id) := by
  rcases setJobState_cases db now i s with e | ⟨j, _, _, _, e⟩
  · rw [e]
  · rw [e]
    show (db.updJob i (withState s)).jobs.map _ = _
    unfold DB.updJob
    rw [List.map_map]
    apply List.map_congr_left
    intro j _
    simp only [Function.comp]
    split <;> rfl

theorem ids_finish (env : Env) (code : Int) (db : DB) : (finish env code db).1.db.jobs.map (·.id) = db.jobs.map (·.id) := by
  rw [finish_begun]
  apply andThen_inv (I := fun s => s.db.jobs.map (·.id) = db.jobs.map (·.id))
  · apply andThen_inv (I := fun s => s.db.jobs.map (·.id) = db.jobs.map (·.id))
    · apply andThen_inv (I := fun s => s.db.jobs.map (·.id) = db.jobs.map (·.id))
      · rw [(begun_frame env code db).1]
      · intro s hs'
        refine each_inv (fail env) (fun s => s.db.jobs.map (·.id) = db.jobs.map (·.id)) _ _ (fun k hk s hs'' => ?_) hs'
        have hset : (setJobState s.db env.now k.id "Error").jobs.map (·.id) = db.jobs.map (·.id) := by
          rw [ids_setJobState]; exact hs''
        rcases fail_cases env k s with ⟨_, e⟩ | ⟨_, _, _, b1, e⟩ | ⟨_, ⟨_, e⟩ | ⟨_, _, b1, b2, _, _, e⟩⟩
        · rw [e]; exact hs''
        · rw [e, (note_db _ _ _ _).1]; exact hs''
        · rw [e]; exact hset
        · rw [e]; exact hset
    · intro s hs'
      refine each_inv (ack env) (fun s => s.db.jobs.map (·.id) = db.jobs.map (·.id)) _ _ (fun k hk s hs'' => ?_) hs'
      rcases ack_cases env k s with ⟨_, e⟩ | ⟨_, _, e⟩
      · rw [e]; exact hs''
      · rw [e]
        show (setJobState s.db env.now k.id "Waiting").jobs.map (·.id) = _
        rw [ids_setJobState]; exact hs''
  · intro s hs'
    rw [(launched_answers env _ s).1]; exact hs'

theorem mem_of_stateOf {db : DB} {i : Nat} {s : String} (h : db.stateOf i = some s) : ∃ j ∈ db.jobs, j.id = i ∧ j.state = s := by
  unfold DB.stateOf at h
  cases hj : db.job? i with
  | none => rw [hj] at h; simp at h
  | some j =>
    rw [hj] at h
    simp at h
    have := job?_some hj
    exact ⟨j, this.1, this.2, h⟩

/-- VIOLATION. As long as this user cannot be told, whatever the number of rounds, the reservation keeps its state and no launching is asked at the end of the rounds. -/
theorem lost_forever {i : Nat} : ∀ (l : List (Env × Int)) (db : DB), Unique db → db.stateOf i = some "toAckReservation" →
    (∀ x ∈ l, ¬ (HasClient x.1 i ∧ x.1.net i .goodReservation = .received)) →
    (rounds l db).2.stateOf i = some "toAckReservation" ∧ (rounds l db).1 = []
  | [], db, _, h, _ => ⟨h, rfl⟩
  | x :: l, db, hu, h, hx => by
    obtain ⟨j, hj, rfl, hs⟩ := mem_of_stateOf h
    have r := lost_reservation (code := x.2) hu hj hs (hx x (by simp))
    have ih := lost_forever l (finish x.1 x.2 db).1.db (by unfold Unique; rw [ids_finish]; exact hu) r.2.1 (fun y hy => hx y (by simp [hy]))
    unfold rounds
    dsimp only
    rw [r.2.2, ih.2]
    exact ⟨ih.1, rfl⟩

/-- VIOLATION. The end of a round never resumes a job. -/
theorem resume_never (env : Env) (code : Int) {db : DB} (hu : Unique db) {i : Nat} (h : db.stateOf i = some "Resuming") :
    (finish env code db).1.db.stateOf i = some "Resuming" := by
  rcases (finish_fair env code hu).states i with a | a | a
  · rw [a]; exact h
  · rw [h] at a; simp at a
  · rw [h] at a; simp at a

/-- VIOLATION. A job without action ("noop") to resume, when no job prevents it, stops the round before any answer: no message, no state, no launching. -/
theorem noop_resume_blocks {env : Env} {code : Int} {db : DB} {j : JobRow} (hj : j ∈ db.jobs) (hs : j.state = "Resuming") (hn : "noop" ∈ j.types)
    (hfree : ∀ k ∈ db.jobs, k.id ≠ j.id → ¬ Busy k.state) :
    (finish env code db).2 = false ∧ (finish env code db).1.told = [] ∧ (finish env code db).1.asked = [] ∧ (finish env code db).1.db.jobs = db.jobs := by
  have h1 : (each (resume env) (inState db "Resuming") ⟨db, [], [], code⟩).2 = false := by
    cases h : (each (resume env) (inState db "Resuming") ⟨db, [], [], code⟩).2 with
    | false => rfl
    | true =>
      have e1 := (each_iff (resume env) (fun s => s.db.jobs = db.jobs) (fun j => (∃ k ∈ db.jobs, HasResources env j ∧ k.id ≠ j.id ∧ Busy k.state) ∨
        (HasResources env j ∧ "noop" ∉ j.types ∧ env.script ≠ none)) (inState db "Resuming") ⟨db, [], [], code⟩
        (fun j _ s hs => by rw [(resume_frame env j s).1]; exact hs) (fun j _ s hs => resume_ok hs) rfl).1 h j ((mem_inState _ _ _).2 ⟨hj, hs⟩)
      rcases e1 with ⟨k, hk, _, hne, hb⟩ | ⟨_, h, _⟩
      · exact absurd hb (hfree k hk hne)
      · exact absurd hn h
  have fr := resumed_frame env code db (inState db "Resuming")
  have e : finish env code db = each (resume env) (inState db "Resuming") ⟨db, [], [], code⟩ := by
    unfold finish
    generalize each (resume env) (inState db "Resuming") ⟨db, [], [], code⟩ = x at *
    simp [andThen, h1]
  rw [e]
  exact ⟨h1, fr.2.1, fr.2.2.1, fr.1⟩

/-! ### Examples -/

/-- An interactive job that waits, a failed interactive job, a failed passive job, an accepted reservation, a job to launch, a running job. -/
def exJobs : List JobRow := [⟨1, "bob", "Waiting", "INTERACTIVE", "None", 0, 0, false, [], none, 1, 60, 0, 0⟩,
  ⟨2, "bob", "toError", "INTERACTIVE", "None", 0, 0, false, [], none, 2, 60, 0, 0⟩,
  ⟨3, "amy", "toError", "PASSIVE", "None", 0, 0, false, [], none, 3, 60, 0, 0⟩,
  ⟨4, "amy", "toAckReservation", "PASSIVE", "Scheduled", 101, 0, false, [], none, 4, 60, 0, 0⟩,
  ⟨5, "eve", "toLaunch", "PASSIVE", "None", 100, 0, false, [], none, 5, 60, 0, 0⟩,
  ⟨6, "eve", "Running", "PASSIVE", "None", 90, 0, false, [], none, 6, 60, 0, 0⟩]

def exDb : DB := ⟨exJobs, [], [], [], []⟩

def exEnv (net : Nat → Msg → Net) (jobs : List Nat) : Env :=
  { now := 100, info := fun i => if i ∈ jobs then some (txt "host:1234") else some (txt ":"), net := net, planned := [1], assigned := [(5, 1), (6, 2)] }

theorem exClient (net : Nat → Msg → Net) (jobs : List Nat) {i : Nat} (h : i ∈ jobs) : HasClient (exEnv net jobs) i := by
  refine ⟨txt "host", txt "1234", 1234, ⟨?_, by decide, by decide⟩, by decide, by decide, by decide⟩
  show (if i ∈ jobs then some (txt "host:1234") else some (txt ":")) = _
  rw [if_pos h]
  decide

/-- The hypotheses of `answers` are met: the interactive client is gone, the others receive their answers. -/
theorem answers_example : Unique exDb ∧ Completes (exEnv (fun i _ => if i = 1 then .refused else .received) [1, 2, 4]) exDb ∧
    (finish (exEnv (fun i _ => if i = 1 then .refused else .received) [1, 2, 4]) 0 exDb).1.told = [(2, .text), (2, .badJob), (4, .goodReservation)] ∧
    (finish (exEnv (fun i _ => if i = 1 then .refused else .received) [1, 2, 4]) 0 exDb).1.asked = [5] ∧
    (finish (exEnv (fun i _ => if i = 1 then .refused else .received) [1, 2, 4]) 0 exDb).1.code = 1 ∧
    ((finish (exEnv (fun i _ => if i = 1 then .refused else .received) [1, 2, 4]) 0 exDb).1.db.jobs.map (·.state)) = ["Waiting", "Error", "Error", "Waiting", "toLaunch", "Running"] ∧
    Fragged (finish (exEnv (fun i _ => if i = 1 then .refused else .received) [1, 2, 4]) 0 exDb).1.db 1 := by
  refine ⟨by unfold Unique; decide, ?_, by decide +kernel, by decide +kernel, by decide +kernel, by decide +kernel, ?_⟩
  · rw [← completes_iff _ 0]
    decide +kernel
  · unfold Fragged
    decide +kernel

/-- The hypotheses of `lost_reservation` are met: the client of the reservation 4 is gone, the job 5 is not launched. -/
theorem lost_example : (exEnv (fun i _ => if i = 4 then .refused else .received) [1, 2, 4]).net 4 .goodReservation = .refused ∧
    exDb.stateOf 4 = some "toAckReservation" ∧
    (finish (exEnv (fun i _ => if i = 4 then .refused else .received) [1, 2, 4]) 0 exDb).1.db.stateOf 4 = some "toAckReservation" ∧
    (finish (exEnv (fun i _ => if i = 4 then .refused else .received) [1, 2, 4]) 0 exDb).1.asked = [] := by
  refine ⟨rfl, by decide +kernel, by decide +kernel, by decide +kernel⟩

/-- Two jobs: the first is to resume, its moldable is 1; the second is in state `s`, its moldable is 2. -/
def exTwo (s : String) (types : List String) : DB := ⟨[⟨1, "bob", "Resuming", "PASSIVE", "None", 50, 0, true, types, none, 1, 60, 0, 0⟩,
  ⟨2, "amy", s, "PASSIVE", "None", 90, 0, false, [], none, 2, 60, 0, 0⟩], [], [], [], []⟩

def exTwoEnv (r : Nat) : Env := { now := 100, info := fun _ => none, net := fun _ _ => .received, assigned := [(1, 7), (2, r)], script := some (fun _ => some 1) }

/-- VIOLATION. A job running on the same resource does not prevent the treatment of the job to resume; a job launching on another resource prevents it. -/
theorem resume_resources_violated : otherJobs (exTwoEnv 7) (exTwo "Running" []) ⟨1, "bob", "Resuming", "PASSIVE", "None", 50, 0, true, [], none, 1, 60, 0, 0⟩ = [] ∧
    otherJobs (exTwoEnv 8) (exTwo "Launching" []) ⟨1, "bob", "Resuming", "PASSIVE", "None", 50, 0, true, [], none, 1, 60, 0, 0⟩ = [2] := by
  refine ⟨by decide +kernel, by decide +kernel⟩

/-- The script that fails asks the deletion of the job; the hypotheses of `answers` are met. -/
theorem script_example : Unique (exTwo "Running" []) ∧ Completes (exTwoEnv 7) (exTwo "Running" []) ∧ Fragged (finish (exTwoEnv 7) 0 (exTwo "Running" [])).1.db 1 := by
  refine ⟨by unfold Unique; decide, ?_, ?_⟩
  · rw [← completes_iff _ 0]
    decide +kernel
  · unfold Fragged
    decide +kernel

/-- The hypotheses of `noop_resume_blocks` are met. -/
theorem noop_example : (finish (exTwoEnv 7) 0 (exTwo "Running" ["noop"])).2 = false := by decide +kernel

end Oar.EndRound
