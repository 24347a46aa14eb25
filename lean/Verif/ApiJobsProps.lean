import Verif.ApiJobsSpec

/-!
# C104: the requests of the API that act on the jobs
-/

namespace Oar.ApiJobs

open Oar.Jobs Oar.Cli Oar.Tools

theorem Adds.refl (S : Nat → Prop) (db : DB) : Adds S db db := ⟨rfl, rfl, rfl, [], [], by simp, by simp, by simp, by simp⟩

theorem Adds.mono {S T : Nat → Prop} {a b : DB} (h : Adds S a b) (hst : ∀ i, S i → T i) : Adds T a b := by
  obtain ⟨h1, h2, h3, fr, ev, h4, h5, h6, h7⟩ := h
  exact ⟨h1, h2, h3, fr, ev, h4, h5, fun f hf => hst _ (h6 f hf), fun e he => hst _ (h7 e he)⟩

theorem Adds.event {S : Nat → Prop} {db : DB} {i : Nat} (h : S i) (ty : String) : Adds S db (addEvent db ty i) :=
  ⟨rfl, rfl, rfl, [], [⟨ty, i, true, []⟩], by simp [addEvent], rfl, by simp, by simp [h]⟩

theorem Adds.trans {S : Nat → Prop} {a b c : DB} (h : Adds S a b) (h' : Adds S b c) : Adds S a c := by
  obtain ⟨h1, h2, h3, fr, ev, h4, h5, h6, h7⟩ := h
  obtain ⟨k1, k2, k3, fr', ev', k4, k5, k6, k7⟩ := h'
  refine ⟨by rw [k1, h1], by rw [k2, h2], by rw [k3, h3], fr ++ fr', ev ++ ev', by rw [k4, h4, List.append_assoc], by rw [k5, h5, List.append_assoc], ?_, ?_⟩
  · intro f hf
    rcases List.mem_append.1 hf with hf | hf
    · exact h6 f hf
    · exact k6 f hf
  · intro f hf
    rcases List.mem_append.1 hf with hf | hf
    · exact h7 f hf
    · exact k7 f hf

theorem answer_db (o : Out) : (answer o).db = o.db ∧ (answer o).sent = o.sent := by
  unfold answer
  split <;> exact ⟨rfl, rfl⟩

/-! ### Each operation -/

theorem oardel_adds (db : DB) (now : Int) (user : String) (up : Bool) (s : Sel) :
    Adds (fun i => Allowed db user i ∧ ∃ ids, select s = .ok ids ∧ i ∈ ids) db (oardel db now user up s).db := by
  cases hs : select s with
  | error r =>
    unfold oardel
    rw [hs]
    exact Adds.refl _ _
  | ok ids =>
    obtain ⟨new, h1, _, h3, _⟩ := oardel_exact db now user up s ids hs
    rw [h1]
    refine ⟨rfl, rfl, rfl, new.map (fragRow now), new.map fragEvent, rfl, rfl, ?_, ?_⟩
    · intro f hf
      obtain ⟨j, hj, rfl⟩ := List.mem_map.1 hf
      have := (h3 j).1 hj
      exact ⟨this.2.1, ids, rfl, this.1⟩
    · intro f hf
      obtain ⟨j, hj, rfl⟩ := List.mem_map.1 hf
      have := (h3 j).1 hj
      exact ⟨this.2.1, ids, rfl, this.1⟩

theorem select_ids (i : Nat) : select { ids := [i] } = .ok [i] := by simp [select]

theorem checkpoint_adds (db : DB) (n : Nodes) (user : String) (i : Nat) :
    Adds (fun k => Allowed db user k ∧ k = i) db (oardelSignal db n true user { ids := [i] }).db := by
  unfold oardelSignal
  rw [select_ids]
  dsimp only
  rw [signalLoop]
  rcases ask_cases db user (if true then "SIGUSR2" else "SIGURG") i with ⟨h1, h2⟩ | ⟨h1, h2, h3⟩
  · obtain ⟨j, hj, hm, _⟩ := h1
    have hS : (fun k => Allowed db user k ∧ k = i) i := ⟨⟨j, hj, hm⟩, rfl⟩
    rw [h2, if_neg (by simp)]
    dsimp only
    by_cases hh : "cosystem" ∉ typesOf db i ∧ "deploy" ∉ typesOf db i ∧ n.hosts i = []
    · rw [if_pos hh]
      exact Adds.event hS _
    · rw [if_neg hh]
      cases n.answers i with
      | true =>
        rw [if_pos rfl, signalLoop]
        exact (Adds.event hS _).trans (Adds.event (db := addEvent db "CHECKPOINT" i) hS _)
      | false =>
        rw [if_neg (by simp), signalLoop]
        exact (Adds.event hS _).trans (Adds.event (db := addEvent db "CHECKPOINT" i) hS _)
  · rw [if_pos h2, h3, signalLoop]
    exact Adds.refl _ _

theorem signal_adds (w : Site) (db : DB) (user : String) (sig : Option Int) (i : Nat) :
    Adds (fun k => Allowed db user k ∧ k = i) db (signal w db user sig i).db := by
  unfold signal
  cases sig with
  | none => dsimp only; rw [(answer_db _).1]; exact checkpoint_adds db w.nodes user i
  | some s =>
    dsimp only
    by_cases hs : s = 0
    · rw [if_pos hs, (answer_db _).1]; exact checkpoint_adds db w.nodes user i
    · rw [if_neg hs]
      rcases ask_cases db user "SIGURG" i with ⟨h1, h2⟩ | ⟨h1, h2, h3⟩
      · rw [h2, if_neg (by simp), (answer_db _).1]
        obtain ⟨j, hj, hm, _⟩ := h1
        exact Adds.event ⟨⟨j, hj, hm⟩, rfl⟩ _
      · rw [if_pos h2, (answer_db _).1]
        show Adds _ db (askCheckpoint db i (some "SIGURG") user).2
        rw [h3]
        exact Adds.refl _ _

theorem hold_adds (db : DB) (cpuset allowed running : Bool) (user : String) (i : Nat) :
    Adds (fun k => Allowed db user k ∧ k = i) db (oarhold db cpuset allowed running user { ids := [i] }).db := by
  unfold oarhold
  rw [select_ids]
  dsimp only
  rw [holdLoop]
  by_cases h : runningRefused cpuset running db i = true
  · rw [if_pos h]; exact Adds.refl _ _
  · rw [if_neg h]
    dsimp only
    have key : Adds (fun k => Allowed db user k ∧ k = i) db (holdJob db allowed i running user).2 := by
      unfold holdJob
      cases hj : db.job? i with
      | none => exact Adds.refl _ _
      | some j =>
        dsimp only
        split
        · exact Adds.refl _ _
        · split
          · rename_i hm
            split
            · exact Adds.event ⟨⟨j, hj, hm⟩, rfl⟩ _
            · exact Adds.refl _ _
          · exact Adds.refl _ _
    split
    · exact key
    · rw [holdLoop]; exact key

theorem resume_adds (db : DB) (allowed : Bool) (user : String) (i : Nat) :
    Adds (fun k => Allowed db user k ∧ k = i) db (oarresume db allowed user { ids := [i] }).db := by
  unfold oarresume
  have hsel : selectResume { ids := [i] } = .ok [i] := by simp [selectResume]
  rw [hsel]
  dsimp only
  rw [resumeLoop]
  have key : Adds (fun k => Allowed db user k ∧ k = i) db (resumeJob db allowed i user).2 := by
    unfold resumeJob
    cases hj : db.job? i with
    | none => exact Adds.refl _ _
    | some j =>
      dsimp only
      split
      · exact Adds.refl _ _
      · split
        · rename_i hm
          split
          · exact Adds.event ⟨⟨j, hj, hm⟩, rfl⟩ _
          · exact Adds.refl _ _
        · exact Adds.refl _ _
  split
  · exact key
  · rw [resumeLoop]; exact key

theorem delete_adds (w : Site) (db : DB) (user : String) (array : Bool) (i : Nat) :
    Adds (fun k => Allowed db user k ∧ (k = i ∨ (array = true ∧ k ∈ w.arrays i))) db (delete w db user array i).db := by
  unfold delete
  rw [(answer_db _).1]
  refine (oardel_adds db w.now user w.up _).mono ?_
  rintro k ⟨h1, ids, h2, h3⟩
  refine ⟨h1, ?_⟩
  cases array with
  | false =>
    left
    rw [if_neg (by simp), select_ids] at h2
    cases h2
    simpa using h3
  | true =>
    right
    refine ⟨rfl, ?_⟩
    rw [if_pos rfl] at h2
    by_cases h0 : i = 0
    · rw [if_pos h0] at h2
      have e : select {} = .error ⟨[], 1⟩ := by simp [select]
      rw [e] at h2
      cases h2
    · rw [if_neg h0] at h2
      unfold select at h2
      rw [if_neg (by simp)] at h2
      cases ha : w.arrays i with
      | nil => rw [ha] at h2; cases h2
      | cons a l =>
        rw [ha] at h2
        cases h2
        exact h3

/-! ### All the requests -/

theorem dispatch_first {m : Method} {path : List (List Char)} {rt : Route} (h : dispatch m path = some rt) : ∃ t rest, path = t :: rest ∧
    (rt = .del t ∨ (∃ s, rt = .signal t s) ∨ rt = .checkpoint t ∨ rt = .resume t ∨ ∃ v, rt = .hold t v) := by
  unfold dispatch at h
  split at h
  · rename_i i
    split at h
    · cases h; exact ⟨i, [], rfl, Or.inl rfl⟩
    · cases h
  · rename_i i v e
    refine ⟨i, [v, e], rfl, ?_⟩
    split at h
    · cases h; exact Or.inl rfl
    · split at h
      · cases h
      · split at h
        · cases h; exact Or.inr (Or.inr (Or.inl rfl))
        · split at h
          · cases h; exact Or.inr (Or.inl ⟨e, rfl⟩)
          · split at h
            · cases h; exact Or.inr (Or.inr (Or.inr (Or.inl rfl)))
            · split at h
              · cases h; exact Or.inr (Or.inr (Or.inr (Or.inr ⟨v, rfl⟩)))
              · cases h
  · cases h

/-- Without a valid token, nothing changes and nothing is sent. -/
theorem no_token (w : Site) (db : DB) (r : Req) (h : r.user = none) : (handle w db r).db = db ∧ (handle w db r).sent = [] ∧
    ((handle w db r).status = 401 ∨ (handle w db r).status = 404) := by
  unfold handle
  split
  · exact ⟨rfl, rfl, Or.inr rfl⟩
  · rw [h]; exact ⟨rfl, rfl, Or.inl rfl⟩

/-- Whatever the request, what changes concerns jobs asked for, on which the user of the token may act. -/
theorem only_allowed (w : Site) (db : DB) (r : Req) : Adds (fun i => Asked w r i ∧ ∃ u, r.user = some u ∧ Allowed db u i) db (handle w db r).db := by
  unfold handle
  cases hd : dispatch r.method r.path with
  | none => exact Adds.refl _ _
  | some rt =>
    dsimp only
    cases hu : r.user with
    | none => exact Adds.refl _ _
    | some u =>
      dsimp only
      obtain ⟨t, rest, hp, hrt⟩ := dispatch_first hd
      have one : ∀ (n : Nat), pyNat t = some n → ∀ db', Adds (fun k => Allowed db u k ∧ k = n) db db' →
          Adds (fun i => Asked w r i ∧ ∃ v, some u = some v ∧ Allowed db v i) db db' := by
        intro n hn db' h
        refine h.mono ?_
        rintro k ⟨h1, rfl⟩
        exact ⟨Or.inl ⟨t, rest, hp, hn⟩, u, rfl, h1⟩
      rcases hrt with rfl | ⟨s, rfl⟩ | rfl | rfl | ⟨v, rfl⟩
      · unfold perform
        cases hn : pyNat t with
        | none => simp only [hn]; exact Adds.refl _ _
        | some n =>
          simp only [hn]
          refine (delete_adds w db u r.array n).mono ?_
          rintro k ⟨h1, rfl | ⟨h2, h3⟩⟩
          · exact ⟨Or.inl ⟨t, rest, hp, hn⟩, u, rfl, h1⟩
          · exact ⟨Or.inr ⟨h2, n, ⟨t, rest, hp, hn⟩, h3⟩, u, rfl, h1⟩
      · unfold perform
        cases hn : pyNat t with
        | none => simp only [hn]; exact Adds.refl _ _
        | some n =>
          cases hs : pyInt s with
          | none => simp only [hn, hs]; exact Adds.refl _ _
          | some k => simp only [hn, hs]; exact one n hn _ (signal_adds w db u (some k) n)
      · unfold perform
        cases hn : pyNat t with
        | none => simp only [hn]; exact Adds.refl _ _
        | some n => simp only [hn]; exact one n hn _ (signal_adds w db u r.signal n)
      · unfold perform
        cases hn : pyNat t with
        | none => simp only [hn]; exact Adds.refl _ _
        | some n =>
          simp only [hn]
          refine one n hn _ ?_
          rw [(answer_db _).1]
          exact resume_adds db w.allowed u n
      · unfold perform
        cases hn : pyNat t with
        | none => simp only [hn]; exact Adds.refl _ _
        | some n =>
          simp only [hn]
          refine one n hn _ ?_
          rw [(answer_db _).1]
          exact hold_adds db w.cpuset w.allowed _ u n

theorem handle_eq {w : Site} {db : DB} {r : Req} {rt : Route} {u : String} {a : Ans} (h1 : dispatch r.method r.path = some rt) (h2 : r.user = some u)
    (h3 : perform w db u r.array r.signal rt = some a) : handle w db r = a := by
  unfold handle
  rw [h1]
  dsimp only
  rw [h2]
  dsimp only
  rw [h3]

/-- `DELETE /jobs/{i}` and `POST /jobs/{i}/deletions/new`: the deletion is registered exactly when the job exists, the user may act on it and it is not being deleted; the field
`exit_status` is 0 exactly when it is registered and the server is up. -/
theorem deletion_exact {w : Site} {db : DB} {r : Req} {u : String} {t : List Char} {i : Nat} (hu : r.user = some u) (ha : r.array = false) (hi : pyNat t = some i)
    (hp : (r.method = .delete ∧ r.path = [t]) ∨ ((r.method = .post ∨ r.method = .delete) ∧ r.path = [t, txt "deletions", txt "new"])) :
    (handle w db r).status = 200 ∧
    ((Allowed db u i ∧ (∀ f ∈ db.frags, f.jid ≠ i) ∧ (handle w db r).db = { db with frags := db.frags ++ [⟨i, w.now, "LEON"⟩], events := db.events ++ [⟨"FRAG_JOB_REQUEST", i, true, []⟩] } ∧
      ((handle w db r).exit = some 0 ↔ w.up = true)) ∨
     (¬ (Allowed db u i ∧ ∀ f ∈ db.frags, f.jid ≠ i) ∧ (handle w db r).db = db ∧ (handle w db r).exit ≠ some 0)) ∧
    (Allowed db u i → "ChState" ∈ (handle w db r).sent ∧ (w.up = true → "Qdel" ∈ (handle w db r).sent)) := by
  have hd : dispatch r.method r.path = some (.del t) := by
    rcases hp with ⟨h1, h2⟩ | ⟨h1, h2⟩
    · rw [h1, h2]; rfl
    · rw [h2]
      unfold dispatch
      exact if_pos ⟨rfl, rfl, h1⟩
  have e : handle w db r = delete w db u false i := by
    apply handle_eq hd hu
    unfold perform
    dsimp only
    rw [hi, ha]
  rw [e]
  unfold delete
  rw [if_neg (by simp)]
  obtain ⟨new, h1, h2, h3, h4, h5, h6, h7⟩ := oardel_exact db w.now u w.up { ids := [i] } [i] (select_ids i)
  have hdb := answer_db (oardel db w.now u w.up { ids := [i] })
  have hans : (answer (oardel db w.now u w.up { ids := [i] })).status = 200 ∧ (answer (oardel db w.now u w.up { ids := [i] })).exit = some (exitValue (oardel db w.now u w.up { ids := [i] }).ret).1 := by
    unfold answer
    rw [h7]
    exact ⟨rfl, rfl⟩
  have hmay : MayDelete db u i ↔ Allowed db u i := Iff.rfl
  refine ⟨hans.1, ?_, ?_⟩
  · rw [hdb.1, h1, hans.2]
    by_cases hc : Allowed db u i ∧ ∀ f ∈ db.frags, f.jid ≠ i
    · left
      have hin : i ∈ new := (h3 i).2 ⟨by simp, hc⟩
      have hnew : new = [i] := by
        have hall : ∀ x ∈ new, x = i := fun x hx => by simpa using ((h3 x).1 hx).1
        cases hn : new with
        | nil => rw [hn] at hin; simp at hin
        | cons a l =>
          rw [hn] at hall h2
          have ha := hall a (by simp)
          cases l with
          | nil => rw [ha]
          | cons b l' =>
            have hb := hall b (by simp)
            rw [ha, hb] at h2
            simp at h2
      refine ⟨hc.1, hc.2, by rw [hnew]; rfl, ?_⟩
      rw [Option.some.injEq, h6]
      constructor
      · rintro ⟨_, h | h⟩
        · exact h
        · exact absurd ⟨i, by simp, hc.1⟩ h
      · intro h; exact ⟨hnew, Or.inl h⟩
    · right
      have hnew : new = [] := by
        cases hn : new with
        | nil => rfl
        | cons a l =>
          have := (h3 a).1 (by rw [hn]; simp)
          have ha : a = i := by simpa using this.1
          rw [ha] at this
          exact absurd this.2 hc
      refine ⟨hc, by rw [hnew]; simp, ?_⟩
      rw [ne_eq, Option.some.injEq, h6, hnew]
      rintro ⟨h, _⟩
      cases h
  · intro h
    rw [hdb.2, h4 ⟨i, by simp, h⟩]
    cases w.up <;> simp

/-- VIOLATION. `POST /jobs/{i}/signal/{s}` with a number of signal never delivers it: for a running passive job of the user, the answer is the status 500, and the event of a checkpoint is
recorded. -/
theorem signal_violated {w : Site} {db : DB} {r : Req} {u : String} {t s : List Char} {i : Nat} {k : Int} (hu : r.user = some u) (hm : r.method = .post)
    (hp : r.path = [t, txt "signal", s]) (hi : pyNat t = some i) (hs : pyInt s = some k) (hk : k ≠ 0) (hc : CanSignal db u i) :
    handle w db r = ⟨500, none, { db with events := db.events ++ [⟨"CHECKPOINT", i, true, []⟩] }, []⟩ := by
  have hd : dispatch r.method r.path = some (.signal t s) := by
    rw [hm, hp]
    unfold dispatch
    dsimp only
    rw [if_neg (by intro h; exact absurd h.1 (by decide)), if_neg (by simp), if_neg (by intro h; exact absurd h.1 (by decide)), if_pos rfl]
  have e : handle w db r = signal w db u (some k) i := by
    apply handle_eq hd hu
    unfold perform
    dsimp only
    rw [hi, hs]
  rw [e]
  unfold signal
  dsimp only
  rw [if_neg hk]
  rcases ask_cases db u "SIGURG" i with ⟨_, h2⟩ | ⟨h1, _, _⟩
  · rw [h2, if_neg (by simp)]
    rfl
  · exact absurd hc h1

/-- VIOLATION. The signal 0, and `POST /jobs/{i}/checkpoints/new`, are the same request. -/
theorem signal_zero (w : Site) (db : DB) (u : String) (i : Nat) : signal w db u (some 0) i = signal w db u none i := rfl

/-- The checkpoint of a running passive job of the user, with a host, is registered with its result. -/
theorem checkpoint_exact {w : Site} {db : DB} {r : Req} {u : String} {t : List Char} {i : Nat} (hu : r.user = some u) (hm : r.method = .post)
    (hp : r.path = [t, txt "checkpoints", txt "new"]) (hq : r.signal = none) (hi : pyNat t = some i) (hc : CanSignal db u i) (hh : HasHost db w.nodes i) :
    (handle w db r).status = 200 ∧ (handle w db r).db = { db with events := db.events ++ [⟨"CHECKPOINT", i, true, []⟩,
      ⟨"CHECKPOINT" ++ (if w.nodes.answers i then "_SUCCESS" else "_ERROR"), i, true, []⟩] } ∧
    ((handle w db r).exit = some 0 ↔ w.nodes.answers i = true) := by
  have hd : dispatch r.method r.path = some (.checkpoint t) := by
    rw [hm, hp]
    unfold dispatch
    dsimp only
    rw [if_neg (by intro h; exact absurd h.1 (by decide)), if_neg (by simp), if_pos ⟨rfl, rfl⟩]
  have e : handle w db r = signal w db u none i := by
    apply handle_eq hd hu
    unfold perform
    dsimp only
    rw [hi, hq]
  rw [e]
  unfold signal
  dsimp only
  have sp := signal_partial db w.nodes true u { ids := [i] } [i] (select_ids i) (by intro j hj _; rw [List.mem_singleton.1 hj]; exact hh)
  refine ⟨?_, ?_, ?_⟩
  · unfold answer; rw [sp.1]; rfl
  · rw [(answer_db _).1, sp.2.1]
    simp [hc, signalEvents]
  · have : (answer (oardelSignal db w.nodes true u { ids := [i] })).exit = some (exitValue (oardelSignal db w.nodes true u { ids := [i] }).ret).1 := by
      unfold answer; rw [sp.1]; rfl
    rw [this, Option.some.injEq, sp.2.2]
    simp [hc]

/-- VIOLATION. Any word in the place of the operation holds the job: `POST /jobs/{i}/{word}/new` for every word that is not one of the four others. -/
theorem unknown_word_violated {w : Site} {db : DB} {r : Req} {u : String} {t v : List Char} {i : Nat} (hu : r.user = some u) (hm : r.method = .post)
    (hp : r.path = [t, v, txt "new"]) (hi : pyNat t = some i) (h1 : v ≠ txt "deletions") (h2 : v ≠ txt "checkpoints") (h3 : v ≠ txt "signal") (h4 : v ≠ txt "resumptions")
    (h5 : v ≠ txt "rhold") (hc : CanHold db w.cpuset w.allowed false u i) :
    handle w db r = ⟨200, some 0, { db with events := db.events ++ [⟨"HOLD_WAITING_JOB", i, true, []⟩] }, ["ChState"]⟩ := by
  have hd : dispatch r.method r.path = some (.hold t v) := by
    rw [hm, hp]
    unfold dispatch
    dsimp only
    rw [if_neg (fun h => h1 h.1), if_neg (by simp), if_neg (fun h => h2 h.1), if_neg h3, if_neg (fun h => h4 h.1), if_pos rfl]
  have e : handle w db r = answer (oarhold db w.cpuset w.allowed false u { ids := [i] }) := by
    apply handle_eq hd hu
    unfold perform
    dsimp only
    rw [hi, decide_eq_false h5]
  rw [e]
  have ho := oarhold_partial db w.cpuset w.allowed false u { ids := [i] } [i] (select_ids i) (by simp) (by intro j hj; rw [List.mem_singleton.1 hj]; exact hc)
  have hr : (oarhold db w.cpuset w.allowed false u { ids := [i] }).raised = false := by
    unfold oarhold
    rw [select_ids]
  unfold answer
  rw [hr, ho.1, ho.2.1, ho.2.2]
  rfl

/-- `POST /jobs/{i}/resumptions/new` of a job that can be resumed by the user. -/
theorem resumption_exact {w : Site} {db : DB} {r : Req} {u : String} {t : List Char} {i : Nat} (hu : r.user = some u) (hm : r.method = .post)
    (hp : r.path = [t, txt "resumptions", txt "new"]) (hi : pyNat t = some i) (hc : CanResume db w.allowed u i) :
    handle w db r = ⟨200, some 0, { db with events := db.events ++ [⟨"RESUME_JOB", i, true, []⟩] }, ["ChState"]⟩ := by
  have hd : dispatch r.method r.path = some (.resume t) := by
    rw [hm, hp]
    unfold dispatch
    dsimp only
    rw [if_neg (by intro h; exact absurd h.1 (by decide)), if_neg (by simp), if_neg (by intro h; exact absurd h.1 (by decide)), if_neg (by decide), if_pos ⟨rfl, rfl⟩]
  have e : handle w db r = answer (oarresume db w.allowed u { ids := [i] }) := by
    apply handle_eq hd hu
    unfold perform
    dsimp only
    rw [hi]
  rw [e]
  have hsel : selectResume { ids := [i] } = .ok [i] := by simp [selectResume]
  have ho := oarresume_partial db w.allowed u { ids := [i] } [i] hsel (by intro j hj; rw [List.mem_singleton.1 hj]; exact hc)
  have hr : (oarresume db w.allowed u { ids := [i] }).raised = false := by
    unfold oarresume
    rw [hsel]
  unfold answer
  rw [hr, ho.1, ho.2.1, ho.2.2]
  rfl

/-! ### Examples -/

def exSite : Site := ⟨50, true, ⟨fun _ => ["n1"], fun _ => true⟩, false, true, fun _ => [1, 2]⟩

def exJobs : DB := ⟨[⟨1, "bob", "Waiting", "PASSIVE", "None", 0, 0, false, [], none, 0, 60, 0, 0⟩, ⟨2, "alice", "Running", "PASSIVE", "None", 10, 0, false, [], none, 3, 60, 0, 0⟩,
  ⟨3, "bob", "Running", "PASSIVE", "None", 10, 0, false, [], none, 4, 60, 0, 0⟩, ⟨4, "bob", "Hold", "PASSIVE", "None", 10, 0, false, [], none, 4, 60, 0, 0⟩], [], [], [], []⟩

/-- Bob deletes the array of the jobs 1 (his) and 2 (of Alice): only his job is deleted; the status of the command is that of the refusal. -/
theorem array_example : (handle exSite exJobs ⟨.delete, [txt "7"], some "bob", true, none⟩).db.frags = [⟨1, 50, "LEON"⟩] ∧
    (handle exSite exJobs ⟨.delete, [txt "7"], some "bob", true, none⟩).exit = some 1 := by
  refine ⟨by decide +kernel, by decide +kernel⟩

/-- The hypotheses of the other theorems are met. -/
theorem requests_example :
    (handle exSite exJobs ⟨.post, [txt "1", txt "deletions", txt "new"], some "bob", false, none⟩).exit = some 0 ∧
    (handle exSite exJobs ⟨.delete, [txt "2"], some "bob", false, none⟩).exit = some 1 ∧
    CanSignal exJobs "bob" 3 ∧ HasHost exJobs exSite.nodes 3 ∧ CanHold exJobs exSite.cpuset exSite.allowed false "bob" 1 ∧ CanResume exJobs exSite.allowed "bob" 4 ∧
    (handle exSite exJobs ⟨.post, [txt "3", txt "signal", txt "10"], some "bob", false, none⟩).status = 500 ∧
    (handle exSite exJobs ⟨.post, [txt "1", txt "delete", txt "new"], some "bob", false, none⟩).db.events = [⟨"HOLD_WAITING_JOB", 1, true, []⟩] := by
  refine ⟨by decide +kernel, by decide +kernel, ⟨_, rfl, Or.inl rfl, rfl, by decide⟩, Or.inl (by decide), ⟨_, rfl, Or.inl rfl, Or.inl rfl, by simp⟩, ?_, by decide +kernel, by decide +kernel⟩
  refine ⟨_, rfl, Or.inl rfl, ?_⟩
  decide

end Oar.ApiJobs
