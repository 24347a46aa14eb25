import Verif.Cli
import Verif.JobsProps

/-!
# C78: the commands oardel, oarhold and oarresume
-/

namespace Oar.Cli

open Oar.Jobs

/-! ## Exit status -/

theorem exitLoop_same : ∀ (l : List Int) (p : Int), p ≠ 0 → (∀ e ∈ l, e ≠ 0 → e = p) → exitLoop l p p = (p, p)
  | [], _, _, _ => rfl
  | e :: es, p, hp, h => by
    rw [exitLoop]
    have ih := exitLoop_same es p hp (fun x hx => h x (List.mem_cons_of_mem _ hx))
    by_cases he : e ≠ 0
    · rw [if_pos he]
      have := h e List.mem_cons_self he
      rw [if_neg (by simp [this]), this, ih]
    · rw [if_neg he, ih]

theorem exitLoop_other : ∀ (l : List Int) (p : Int), p ≠ 0 → (∃ e ∈ l, e ≠ 0 ∧ e ≠ p) → exitLoop l p p = (15, p)
  | [], _, _, h => by obtain ⟨e, he, _⟩ := h; simp at he
  | e :: es, p, hp, h => by
    rw [exitLoop]
    by_cases he : e ≠ 0
    · rw [if_pos he]
      by_cases hep : e = p
      · rw [if_neg (by simp [hep]), hep]
        refine exitLoop_other es p hp ?_
        obtain ⟨x, hx, h1, h2⟩ := h
        rcases List.mem_cons.1 hx with rfl | hx
        · exact absurd hep h2
        · exact ⟨x, hx, h1, h2⟩
      · rw [if_pos ⟨hp, fun e' => hep e'.symm⟩]
    · rw [if_neg he]
      refine exitLoop_other es p hp ?_
      obtain ⟨x, hx, h1, h2⟩ := h
      rcases List.mem_cons.1 hx with rfl | hx
      · exact absurd h1 he
      · exact ⟨x, hx, h1, h2⟩

theorem exitLoop_zero : ∀ (l : List Int),
    ((∀ e ∈ l, e = 0) ∧ exitLoop l 0 0 = (0, 0)) ∨
    ∃ c ∈ l, c ≠ 0 ∧ (((∀ e ∈ l, e ≠ 0 → e = c) ∧ exitLoop l 0 0 = (c, c)) ∨ ((∃ e ∈ l, e ≠ 0 ∧ e ≠ c) ∧ exitLoop l 0 0 = (15, c)))
  | [] => Or.inl ⟨by simp, rfl⟩
  | e :: es => by
    rw [exitLoop]
    by_cases he : e ≠ 0
    · rw [if_pos he, if_neg (by simp)]
      right
      refine ⟨e, List.mem_cons_self, he, ?_⟩
      by_cases hs : ∀ x ∈ es, x ≠ 0 → x = e
      · exact Or.inl ⟨by simpa using hs, exitLoop_same es e he hs⟩
      · simp only [Classical.not_forall] at hs
        obtain ⟨x, hx, h1, h2⟩ := hs
        exact Or.inr ⟨⟨x, List.mem_cons_of_mem _ hx, h1, h2⟩, exitLoop_other es e he ⟨x, hx, h1, h2⟩⟩
    · rw [if_neg he]
      have he0 : e = 0 := Classical.not_not.1 he
      rcases exitLoop_zero es with ⟨h1, h2⟩ | ⟨c, hc, h1, h2⟩
      · exact Or.inl ⟨by simpa [he0] using h1, h2⟩
      · right
        refine ⟨c, List.mem_cons_of_mem _ hc, h1, ?_⟩
        rcases h2 with ⟨h3, h4⟩ | ⟨⟨x, hx, h3, h4⟩, h5⟩
        · left
          refine ⟨?_, h4⟩
          intro x hx hx0
          rcases List.mem_cons.1 hx with rfl | hx
          · exact absurd he0 hx0
          · exact h3 x hx hx0
        · exact Or.inr ⟨⟨x, List.mem_cons_of_mem _ hx, h3, h4⟩, h5⟩

/-- **C78, exit status.** It is 0 when no message is an error, the common code when all the errors have the same one, and 15 when two of them
differ. -/
theorem exit_spec (l : List Int) :
    ((exitValue ⟨l, 0⟩).1 = 0 ↔ ∀ e ∈ l, e = 0) ∧
    (∀ c ∈ l, c ≠ 0 → (∀ e ∈ l, e ≠ 0 → e = c) → (exitValue ⟨l, 0⟩).1 = c) ∧
    (∀ c ∈ l, ∀ d ∈ l, c ≠ 0 → d ≠ 0 → c ≠ d → (exitValue ⟨l, 0⟩).1 = 15) := by
  have e : (exitValue ⟨l, 0⟩).1 = (exitLoop l 0 0).1 := rfl
  rw [e]
  rcases exitLoop_zero l with ⟨h1, h2⟩ | ⟨c, hc, h1, ⟨h3, h4⟩ | ⟨⟨x, hx, h3, h4⟩, h5⟩⟩
  · rw [h2]
    refine ⟨by simpa using h1, fun c hc h0 => absurd (h1 c hc) h0, fun c hc d _ h0 => absurd (h1 c hc) h0⟩
  · rw [h4]
    refine ⟨⟨fun h => absurd h h1, fun h => absurd (h c hc) h1⟩, fun d hd h0 _ => (h3 d hd h0).symm, ?_⟩
    intro d hd d' hd' g1 g2 g3
    exact absurd ((h3 d hd g1).trans (h3 d' hd' g2).symm) g3
  · rw [h5]
    refine ⟨⟨fun h => absurd (show (15 : Int) = 0 from h) (by decide), fun h => absurd (h c hc) h1⟩, ?_, fun _ _ _ _ _ _ _ => rfl⟩
    intro d hd h0 hall
    exact absurd ((hall x hx h3).trans (hall c hc h1).symm) h4

/-- C78 (violated). One would expect the same value if it is asked again: with two different errors the second answer is the first error. -/
theorem exit_again_violated (c d : Int) (hc : c ≠ 0) (hd : d ≠ 0) (h : c ≠ d) :
    (exitValue ⟨[c, d], 0⟩).1 = 15 ∧ (exitValue (exitValue ⟨[c, d], 0⟩).2).1 = c := by
  have e : exitLoop [c, d] 0 0 = (15, c) := by
    rw [exitLoop, if_pos hc, if_neg (by simp), exitLoop, if_pos hd, if_pos ⟨hc, h⟩]
  unfold exitValue
  rw [if_pos (show (⟨[c, d], 0⟩ : Ret).final = 0 from rfl), e]
  exact ⟨rfl, by rw [if_neg (show ¬ c = 0 from hc)]⟩

/-! ## Selection -/

/-- **C78, selection.** A clause has the priority over an array, an array over a list of identifiers. -/
theorem select_spec (ids a q : List Nat) (h : ids ≠ []) (ha : a ≠ []) (hq : q ≠ []) :
    select { ids := ids } = .ok ids ∧ select { ids := ids, array := some a } = .ok a ∧ select { ids := ids, array := some a, sql := some q } = .ok q ∧
    select { ids := ids, sql := some q } = .ok q := by
  cases a with
  | nil => exact absurd rfl ha
  | cons x a =>
    cases q with
    | nil => exact absurd rfl hq
    | cons y q => simp [select, h]

/-- C78 (violated). One would expect an error when no job is selected: nothing is done and the status is 0. -/
theorem empty_selection_violated (db : DB) (now : Int) (user : String) (up : Bool) (ids : List Nat) :
    oardel db now user up { ids := ids, array := some [] } = ⟨db, ⟨[0], 0⟩, [], false⟩ ∧
    (exitValue (oardel db now user up { ids := ids, array := some [] }).ret).1 = 0 ∧
    oardel db now user up { ids := ids, sql := some [] } = ⟨db, ⟨[0], 0⟩, [], false⟩ ∧
    (exitValue (oardel db now user up { ids := ids, sql := some [] }).ret).1 = 0 ∧
    (∀ cpuset allowed running, oarhold db cpuset allowed running user { ids := ids, array := some [] } = ⟨db, ⟨[0], 0⟩, [], false⟩ ∧
      oarhold db cpuset allowed running user { ids := ids, sql := some [] } = ⟨db, ⟨[0], 0⟩, [], false⟩) := by
  have : select { ids := ids, array := some [] } = .error ⟨[0], 0⟩ := by simp [select]
  have h2 : select { ids := ids, sql := some [] } = .error ⟨[0], 0⟩ := by simp [select]
  unfold oardel
  rw [this, h2]
  refine ⟨rfl, rfl, rfl, rfl, fun cpuset allowed running => ?_⟩
  unfold oarhold
  rw [this, h2]
  exact ⟨rfl, rfl⟩

/-- **C78.** Without selection the three commands say it with the status 1, and do nothing. -/
theorem no_selection (db : DB) (now : Int) (user : String) (up cpuset allowed running : Bool) :
    (oardel db now user up {}, oarhold db cpuset allowed running user {}, oarresume db allowed user {}) =
      (⟨db, ⟨[], 1⟩, [], false⟩, ⟨db, ⟨[], 1⟩, [], false⟩, ⟨db, ⟨[], 1⟩, [], false⟩) ∧
    (exitValue ⟨[], 1⟩).1 = 1 := ⟨rfl, rfl⟩

/-! ## oardel -/

/-- The user may delete the job. -/
def MayDelete (db : DB) (user : String) (jid : Nat) : Prop := ∃ j, db.job? jid = some j ∧ MayAct user j

/-- The row of a request of deletion. -/
def fragRow (now : Int) (j : Nat) : FragRow := ⟨j, now, "LEON"⟩

/-- The event of a request of deletion. -/
def fragEvent (j : Nat) : Event := ⟨"FRAG_JOB_REQUEST", j, true, []⟩

theorem fragJob_codes (db : DB) (now : Int) (jid : Nat) (user : String) :
    (MayDelete db user jid ∧ (∀ f ∈ db.frags, f.jid ≠ jid) ∧
      fragJob db now jid user = (0, { db with frags := db.frags ++ [fragRow now jid], events := db.events ++ [fragEvent jid] })) ∨
    (MayDelete db user jid ∧ (∃ f ∈ db.frags, f.jid = jid) ∧ fragJob db now jid user = (-2, db)) ∨
    (¬ MayDelete db user jid ∧ (fragJob db now jid user = (-1, db) ∨ fragJob db now jid user = (-3, db))) := by
  unfold fragJob MayDelete
  cases hj : db.job? jid with
  | none => exact Or.inr (Or.inr ⟨by simp, Or.inr rfl⟩)
  | some j =>
    dsimp only
    by_cases hu : user = j.user ∨ user = "oar" ∨ user = "root"
    · rw [if_pos hu]
      by_cases hf : db.frags.any (fun f => f.jid == jid) = true
      · rw [if_pos hf]
        obtain ⟨f, h1, h2⟩ := List.any_eq_true.1 hf
        exact Or.inr (Or.inl ⟨⟨j, rfl, hu⟩, ⟨f, h1, by simpa using h2⟩, rfl⟩)
      · rw [if_neg hf]
        refine Or.inl ⟨⟨j, rfl, hu⟩, ?_, rfl⟩
        intro f hfm e
        exact hf (List.any_eq_true.2 ⟨f, hfm, by simpa using e⟩)
    · rw [if_neg hu]
      refine Or.inr (Or.inr ⟨?_, Or.inl rfl⟩)
      rintro ⟨k, hk, hm⟩
      rw [← Option.some.inj hk] at hm
      exact hu hm

theorem del_spec (now : Int) (user : String) : ∀ (ids : List Nat) (s : Del), ∃ new ex,
    (ids.foldl (delOne now user) s).db = { s.db with frags := s.db.frags ++ new.map (fragRow now), events := s.db.events ++ new.map fragEvent } ∧
    (ids.foldl (delOne now user) s).exits = s.exits ++ ex ∧ (ids.foldl (delOne now user) s).registered = s.registered ++ new ∧ new.Nodup ∧
    (∀ j, j ∈ new ↔ j ∈ ids ∧ MayDelete s.db user j ∧ ∀ f ∈ s.db.frags, f.jid ≠ j) ∧
    ((ids.foldl (delOne now user) s).notify = true ↔ s.notify = true ∨ ∃ j ∈ ids, MayDelete s.db user j) ∧
    ((∀ e ∈ ex, e = 0) ↔ new = ids) ∧ new.length ≤ ids.length
  | [], s => ⟨[], [], by simp, by simp, by simp, by simp, by simp, by simp, by simp, by simp⟩
  | j :: ids, s => by
    rw [List.foldl_cons]
    rcases fragJob_codes s.db now j user with ⟨hm, hf, e⟩ | ⟨hm, hf, e⟩ | ⟨hm, e⟩
    · have es : delOne now user s j = { db := { s.db with frags := s.db.frags ++ [fragRow now j], events := s.db.events ++ [fragEvent j] },
                                        exits := s.exits ++ [0, 0], notify := true, registered := s.registered ++ [j] } := by
        unfold delOne; rw [e]; rfl
      rw [es]
      obtain ⟨new, ex, h1, h2, h3, h4, h5, h6, h7, h8⟩ := del_spec now user ids
        { db := { s.db with frags := s.db.frags ++ [fragRow now j], events := s.db.events ++ [fragEvent j] },
          exits := s.exits ++ [0, 0], notify := true, registered := s.registered ++ [j] }
      have hj : j ∉ new := fun hx => ((h5 j).1 hx).2.2 (fragRow now j) (by simp) rfl
      refine ⟨j :: new, 0 :: 0 :: ex, by rw [h1]; simp, by rw [h2]; simp, by rw [h3]; simp, List.nodup_cons.2 ⟨hj, h4⟩, ?_, ?_, ?_, ?_⟩
      · intro k
        rw [List.mem_cons, h5 k, List.mem_cons]
        constructor
        · rintro (rfl | ⟨g1, g2, g3⟩)
          · exact ⟨Or.inl rfl, hm, hf⟩
          · exact ⟨Or.inr g1, g2, fun f hfm => g3 f (List.mem_append_left _ hfm)⟩
        · rintro ⟨g1, g2, g3⟩
          by_cases hk : k = j
          · exact Or.inl hk
          · refine Or.inr ⟨g1.resolve_left hk, g2, ?_⟩
            intro f hfm
            rcases List.mem_append.1 hfm with h | h
            · exact g3 f h
            · rw [List.mem_singleton.1 h]; exact fun e => hk e.symm
      · rw [h6]
        constructor
        · intro _; exact Or.inr ⟨j, List.mem_cons_self, hm⟩
        · intro _; exact Or.inl rfl
      · rw [List.cons.injEq]
        simp only [List.mem_cons, forall_eq_or_imp, true_and]
        exact h7
      · simp only [List.length_cons]; omega
    · have es : delOne now user s j = { s with exits := s.exits ++ [0, 6], notify := true } := by
        unfold delOne; rw [e]; rfl
      rw [es]
      obtain ⟨new, ex, h1, h2, h3, h4, h5, h6, h7, h8⟩ := del_spec now user ids { s with exits := s.exits ++ [0, 6], notify := true }
      refine ⟨new, 0 :: 6 :: ex, h1, by rw [h2]; simp, h3, h4, ?_, ?_, ?_, ?_⟩
      · intro k
        rw [h5 k, List.mem_cons]
        constructor
        · rintro ⟨g1, g2, g3⟩; exact ⟨Or.inr g1, g2, g3⟩
        · rintro ⟨g1, g2, g3⟩
          refine ⟨g1.resolve_left ?_, g2, g3⟩
          rintro rfl
          obtain ⟨f, f1, f2⟩ := hf
          exact g3 f f1 f2
      · rw [h6]
        constructor
        · intro _; exact Or.inr ⟨j, List.mem_cons_self, hm⟩
        · intro _; exact Or.inl rfl
      · constructor
        · intro h; exact absurd (h 6 (by simp)) (by decide)
        · intro h; rw [h, List.length_cons] at h8; omega
      · simp only [List.length_cons]; omega
    · have es : ∃ c, c ≠ 0 ∧ delOne now user s j = { s with exits := s.exits ++ [0, c] } := by
        rcases e with e | e
        · exact ⟨1, by decide, by unfold delOne; rw [e]; rfl⟩
        · exact ⟨7, by decide, by unfold delOne; rw [e]; rfl⟩
      obtain ⟨c, hc, es⟩ := es
      rw [es]
      obtain ⟨new, ex, h1, h2, h3, h4, h5, h6, h7, h8⟩ := del_spec now user ids { s with exits := s.exits ++ [0, c] }
      refine ⟨new, 0 :: c :: ex, h1, by rw [h2]; simp, h3, h4, ?_, ?_, ?_, ?_⟩
      · intro k
        rw [h5 k, List.mem_cons]
        constructor
        · rintro ⟨g1, g2, g3⟩; exact ⟨Or.inr g1, g2, g3⟩
        · rintro ⟨g1, g2, g3⟩
          refine ⟨g1.resolve_left ?_, g2, g3⟩
          rintro rfl
          exact hm g2
      · rw [h6]
        apply or_congr_right
        constructor
        · rintro ⟨k, hk, g⟩; exact ⟨k, List.mem_cons_of_mem _ hk, g⟩
        · rintro ⟨k, hk, g⟩
          rcases List.mem_cons.1 hk with rfl | hk
          · exact absurd g hm
          · exact ⟨k, hk, g⟩
      · constructor
        · intro h; exact absurd (h c (by simp)) hc
        · intro h; rw [h, List.length_cons] at h8; omega
      · simp only [List.length_cons]; omega

/-- **C78, oardel.** Each selected job the user may delete and that is not being deleted gets one request (a row and an event), whatever the other
jobs; nothing else changes; the server is told (both notifications when the first one is accepted) exactly when one of the jobs may be deleted by
the user; the status is 0 exactly when every job was registered by this command and the server was told. -/
theorem oardel_exact (db : DB) (now : Int) (user : String) (up : Bool) (s : Sel) (ids : List Nat) (hs : select s = .ok ids) :
    ∃ new : List Nat,
      (oardel db now user up s).db = { db with frags := db.frags ++ new.map (fragRow now), events := db.events ++ new.map fragEvent } ∧
      new.Nodup ∧ (∀ j, j ∈ new ↔ j ∈ ids ∧ MayDelete db user j ∧ ∀ f ∈ db.frags, f.jid ≠ j) ∧
      ((∃ j ∈ ids, MayDelete db user j) → (oardel db now user up s).sent = if up then ["ChState", "Qdel"] else ["ChState"]) ∧
      ((¬ ∃ j ∈ ids, MayDelete db user j) → (oardel db now user up s).sent = []) ∧
      ((exitValue (oardel db now user up s).ret).1 = 0 ↔ new = ids ∧ (up = true ∨ ¬ ∃ j ∈ ids, MayDelete db user j)) ∧
      (oardel db now user up s).raised = false := by
  obtain ⟨new, ex, h1, h2, h3, h4, h5, h6, h7, h8⟩ := del_spec now user ids { db := db }
  rw [List.nil_append] at h2
  have h6' : (ids.foldl (delOne now user) { db := db }).notify = true ↔ ∃ j ∈ ids, MayDelete db user j := by
    rw [h6]; simp
  unfold oardel
  rw [hs]
  dsimp only
  by_cases hn : ∃ j ∈ ids, MayDelete db user j
  · rw [if_pos (h6'.2 hn)]
    cases up with
    | true =>
      rw [if_pos rfl]
      refine ⟨new, h1, h4, h5, fun _ => rfl, fun h => absurd hn h, ?_, rfl⟩
      rw [(exit_spec _).1, h2]
      simp only [List.mem_append, List.mem_singleton]
      constructor
      · intro h; exact ⟨h7.1 (fun e he => h e (Or.inl he)), Or.inl trivial⟩
      · rintro ⟨h, _⟩ e (he | he)
        · exact h7.2 h e he
        · exact he
    | false =>
      rw [if_neg (by simp)]
      refine ⟨new, h1, h4, h5, fun _ => rfl, fun h => absurd hn h, ?_, rfl⟩
      rw [(exit_spec _).1]
      constructor
      · intro h; exact absurd (h 2 (by simp)) (by decide)
      · rintro ⟨_, h | h⟩
        · exact absurd h (by simp)
        · exact absurd hn h
  · rw [if_neg (fun h => hn (h6'.1 h))]
    refine ⟨new, h1, h4, h5, fun h => absurd h hn, fun _ => rfl, ?_, rfl⟩
    rw [(exit_spec _).1, h2, h7]
    exact ⟨fun h => ⟨h, Or.inr hn⟩, fun h => h.1⟩

/-! ## oarhold and oarresume -/

/-- The request of oarhold can be accepted for the job. -/
def CanHold (db : DB) (cpuset allowed running : Bool) (user : String) (jid : Nat) : Prop :=
  ∃ j, db.job? jid = some j ∧ MayAct user j ∧ Holdable running j.state ∧
    (running = true → (allowed = true ∨ user = "oar" ∨ user = "root") ∧ cpuset = true ∧ "cosystem" ∉ j.types ∧ "deploy" ∉ j.types)

/-- The event of oarhold. -/
def holdEvent (running : Bool) (j : Nat) : Event := ⟨if running then "HOLD_RUNNING_JOB" else "HOLD_WAITING_JOB", j, true, []⟩

theorem runningRefused_iff (cpuset running : Bool) (db : DB) (jid : Nat) : runningRefused cpuset running db jid = true ↔
    running = true ∧ (cpuset = false ∨ ∃ j, db.job? jid = some j ∧ ("cosystem" ∈ j.types ∨ "deploy" ∈ j.types)) := by
  unfold runningRefused typesOf
  cases hj : db.job? jid with
  | none => cases running <;> cases cpuset <;> simp
  | some j => cases running <;> cases cpuset <;> simp

theorem hold_one (db : DB) (cpuset allowed running : Bool) (user : String) (jid : Nat) :
    (CanHold db cpuset allowed running user jid ∧ runningRefused cpuset running db jid = false ∧
      holdJob db allowed jid running user = (0, { db with events := db.events ++ [holdEvent running jid] })) ∨
    (¬ CanHold db cpuset allowed running user jid ∧ (runningRefused cpuset running db jid = true ∨
      ((holdJob db allowed jid running user).1 ≠ 0 ∧ (holdJob db allowed jid running user).2 = db))) := by
  have hr := runningRefused_iff cpuset running db jid
  rcases holdJob_spec db allowed jid running user with ⟨⟨j, h1, h2, h3, h4⟩, h5⟩ | ⟨h1, h2, h3⟩
  · cases hb : runningRefused cpuset running db jid with
    | true =>
      right
      refine ⟨?_, Or.inl rfl⟩
      obtain ⟨g1, g2⟩ := hr.1 hb
      rintro ⟨k, k1, _, _, k4⟩
      obtain ⟨_, c1, c2, c3⟩ := k4 g1
      rcases g2 with g2 | ⟨k', e, g2⟩
      · rw [g2] at c1; exact absurd c1 (by simp)
      · rw [k1] at e
        injection e with e
        subst e
        rcases g2 with g2 | g2
        · exact c2 g2
        · exact c3 g2
    | false =>
      left
      refine ⟨⟨j, h1, h2, h3, ?_⟩, rfl, h5⟩
      intro hrun
      have hn : ¬ (running = true ∧ (cpuset = false ∨ ∃ j, db.job? jid = some j ∧ ("cosystem" ∈ j.types ∨ "deploy" ∈ j.types))) := by
        rw [← hr, hb]; simp
      refine ⟨?_, ?_, ?_, ?_⟩
      · cases ha : allowed with
        | true => exact Or.inl rfl
        | false => exact Or.inr (h4 hrun ha)
      · cases hc : cpuset with
        | true => rfl
        | false => exact absurd ⟨hrun, Or.inl hc⟩ hn
      · exact fun h => hn ⟨hrun, Or.inr ⟨j, h1, Or.inl h⟩⟩
      · exact fun h => hn ⟨hrun, Or.inr ⟨j, h1, Or.inr h⟩⟩
  · right
    refine ⟨?_, Or.inr ⟨by omega, h3⟩⟩
    rintro ⟨j, k1, k2, k3, k4⟩
    refine h1 ⟨j, k1, k2, k3, ?_⟩
    intro g1 g2
    rcases (k4 g1).1 with h | h
    · rw [g2] at h; exact absurd h (by simp)
    · exact h

theorem canHold_events (db : DB) (evs : List Event) (cpuset allowed running : Bool) (user : String) (jid : Nat) :
    CanHold { db with events := evs } cpuset allowed running user jid ↔ CanHold db cpuset allowed running user jid := Iff.rfl

theorem holdLoop_ok (cpuset allowed running : Bool) (user : String) : ∀ (a b : List Nat) (db : DB) (ex : List Int),
    (∀ j ∈ a, CanHold db cpuset allowed running user j) →
    holdLoop cpuset allowed running user db ex (a ++ b) =
      holdLoop cpuset allowed running user { db with events := db.events ++ a.map (holdEvent running) } (ex ++ a.map (fun _ => 0)) b
  | [], b, db, ex, _ => by simp
  | j :: a, b, db, ex, h => by
    rw [List.cons_append, holdLoop]
    rcases hold_one db cpuset allowed running user j with ⟨_, h2, h3⟩ | ⟨h1, _⟩
    · rw [if_neg (by simp [h2])]
      dsimp only
      rw [h3, if_neg (by simp)]
      dsimp only
      rw [holdLoop_ok cpuset allowed running user a b _ _ (fun k hk => (canHold_events _ _ _ _ _ _ _).2 (h k (List.mem_cons_of_mem _ hk)))]
      simp
    · exact absurd (h j List.mem_cons_self) h1

/-- **C78, oarhold.** If every selected job can be held, each one gets its event, in order, nothing else changes, the server is told and the status is 0. -/
theorem oarhold_partial (db : DB) (cpuset allowed running : Bool) (user : String) (s : Sel) (ids : List Nat) (hs : select s = .ok ids) (hne : ids ≠ [])
    (h : ∀ j ∈ ids, CanHold db cpuset allowed running user j) :
    (oarhold db cpuset allowed running user s).db = { db with events := db.events ++ ids.map (holdEvent running) } ∧
    (oarhold db cpuset allowed running user s).sent = ["ChState"] ∧ (exitValue (oarhold db cpuset allowed running user s).ret).1 = 0 := by
  have e := holdLoop_ok cpuset allowed running user ids [] db [] h
  rw [List.append_nil, holdLoop] at e
  unfold oarhold
  rw [hs]
  dsimp only
  rw [e]
  refine ⟨rfl, by simp [hne], ?_⟩
  rw [(exit_spec _).1]
  simp

/-- C78 (violated). One would expect the jobs of a command to be treated independently: the command stops at the first job that cannot be held; the
jobs before it have their event but the server is not told, the jobs after it are left, whether or not they could be held. -/
theorem oarhold_stops_violated (db : DB) (cpuset allowed running : Bool) (user : String) (s : Sel) (a b : List Nat) (x : Nat)
    (hs : select s = .ok (a ++ x :: b)) (h : ∀ j ∈ a, CanHold db cpuset allowed running user j) (hx : ¬ CanHold db cpuset allowed running user x) :
    (oarhold db cpuset allowed running user s).db = { db with events := db.events ++ a.map (holdEvent running) } ∧
    (oarhold db cpuset allowed running user s).sent = [] ∧ (exitValue (oarhold db cpuset allowed running user s).ret).1 ≠ 0 := by
  have e := holdLoop_ok cpuset allowed running user a (x :: b) db [] h
  have e2 : ∃ c : Int, c ≠ 0 ∧ ∀ db' : DB, (∃ evs, db' = { db with events := evs }) → ∀ ex, holdLoop cpuset allowed running user db' ex (x :: b) = (db', ex ++ [c], false) := by
    cases hb : runningRefused cpuset running db x with
    | true =>
      refine ⟨2, by decide, ?_⟩
      rintro db' ⟨evs, rfl⟩ ex
      rw [holdLoop, if_pos (show runningRefused cpuset running { db with events := evs } x = true from hb)]
    | false =>
      refine ⟨1, by decide, ?_⟩
      rintro db' ⟨evs, rfl⟩ ex
      rw [holdLoop, if_neg (show ¬ runningRefused cpuset running { db with events := evs } x = true from by rw [show runningRefused cpuset running { db with events := evs } x = runningRefused cpuset running db x from rfl, hb]; simp)]
      rcases hold_one { db with events := evs } cpuset allowed running user x with ⟨h1, _⟩ | ⟨_, h2 | ⟨h2, h3⟩⟩
      · exact absurd ((canHold_events _ _ _ _ _ _ _).1 h1) hx
      · rw [show runningRefused cpuset running { db with events := evs } x = runningRefused cpuset running db x from rfl, hb] at h2
        exact absurd h2 (by simp)
      · dsimp only
        rw [if_pos h2, h3]
  obtain ⟨c, hc, e2⟩ := e2
  rw [e2 _ ⟨_, rfl⟩] at e
  unfold oarhold
  rw [hs]
  dsimp only
  rw [e]
  refine ⟨rfl, by simp, ?_⟩
  intro h0
  rw [(exit_spec _).1] at h0
  exact hc (h0 c (by simp))

/-- The request of oarresume can be accepted for the job. -/
def CanResume (db : DB) (allowed : Bool) (user : String) (jid : Nat) : Prop :=
  ∃ j, db.job? jid = some j ∧ MayAct user j ∧ (j.state = "Hold" ∨ j.state = "Suspended") ∧
    (j.state = "Suspended" → allowed = false → user = "oar" ∨ user = "root")

/-- The event of oarresume. -/
def resumeEvent (j : Nat) : Event := ⟨"RESUME_JOB", j, true, []⟩

theorem resumeLoop_ok (allowed : Bool) (user : String) : ∀ (a b : List Nat) (db : DB) (ex : List Int),
    (∀ j ∈ a, CanResume db allowed user j) →
    resumeLoop allowed user db ex (a ++ b) =
      resumeLoop allowed user { db with events := db.events ++ a.map resumeEvent } (ex ++ a.map (fun _ => 0)) b
  | [], b, db, ex, _ => by simp
  | j :: a, b, db, ex, h => by
    rw [List.cons_append, resumeLoop]
    rcases resumeJob_spec db allowed j user with ⟨_, h3⟩ | ⟨h1, _⟩
    · rw [h3, if_neg (by simp)]
      dsimp only
      rw [resumeLoop_ok allowed user a b { db with events := db.events ++ [⟨"RESUME_JOB", j, true, []⟩] } (ex ++ [0])
        (fun k hk => h k (List.mem_cons_of_mem _ hk))]
      simp [resumeEvent]
    · exact absurd (h j List.mem_cons_self) h1

/-- **C78, oarresume.** If every selected job can be resumed, each one gets its event, nothing else changes, the server is told and the status is 0. -/
theorem oarresume_partial (db : DB) (allowed : Bool) (user : String) (s : Sel) (ids : List Nat) (hs : selectResume s = .ok ids)
    (h : ∀ j ∈ ids, CanResume db allowed user j) :
    (oarresume db allowed user s).db = { db with events := db.events ++ ids.map resumeEvent } ∧
    (oarresume db allowed user s).sent = ["ChState"] ∧ (exitValue (oarresume db allowed user s).ret).1 = 0 := by
  have e := resumeLoop_ok allowed user ids [] db [] h
  rw [List.append_nil, resumeLoop] at e
  unfold oarresume
  rw [hs]
  dsimp only
  rw [e]
  refine ⟨rfl, by simp, ?_⟩
  rw [(exit_spec _).1]
  simp

/-- C78 (violated). The same for oarresume: it stops at the first job that cannot be resumed, without telling the server of those before it. -/
theorem oarresume_stops_violated (db : DB) (allowed : Bool) (user : String) (s : Sel) (a b : List Nat) (x : Nat)
    (hs : selectResume s = .ok (a ++ x :: b)) (h : ∀ j ∈ a, CanResume db allowed user j) (hx : ¬ CanResume db allowed user x) :
    (oarresume db allowed user s).db = { db with events := db.events ++ a.map resumeEvent } ∧
    (oarresume db allowed user s).sent = [] ∧ (exitValue (oarresume db allowed user s).ret).1 = 1 := by
  have e := resumeLoop_ok allowed user a (x :: b) db [] h
  rw [resumeLoop] at e
  rcases resumeJob_spec { db with events := db.events ++ a.map resumeEvent } allowed x user with ⟨h1, _⟩ | ⟨_, h2, h3⟩
  · exact absurd h1 hx
  · rw [if_pos (by omega), h3] at e
    unfold oarresume
    rw [hs]
    dsimp only
    rw [e]
    refine ⟨rfl, by simp, ?_⟩
    refine (exit_spec _).2.1 1 (by simp) (by decide) ?_
    intro c hc h0
    simp only [List.nil_append, List.mem_append, List.mem_map, List.mem_singleton] at hc
    rcases hc with ⟨_, _, rfl⟩ | hc
    · exact absurd rfl h0
    · exact hc

/-- C78 (violated). One would expect `POST /jobs/{id}/{word}/new` to be refused for an unknown word: every word other than `rhold` holds the job. -/
theorem api_any_word_violated (db : DB) (cpuset allowed : Bool) (user : String) (jid : Nat) (word : String) (hw : word ≠ "rhold")
    (h : CanHold db cpuset allowed false user jid) : (apiHold db cpuset allowed user jid word).db.events = db.events ++ [⟨"HOLD_WAITING_JOB", jid, true, []⟩] := by
  unfold apiHold
  rw [show (word == "rhold") = false by simpa using hw]
  have hs : select { ids := [jid] } = .ok [jid] := by simp [select]
  rw [(oarhold_partial db cpuset allowed false user _ [jid] hs (by simp) (by simpa using h)).1]
  rfl

/-! ## Signals -/

/-- The signal can be asked for. -/
def CanSignal (db : DB) (user : String) (jid : Nat) : Prop :=
  ∃ j, db.job? jid = some j ∧ MayAct user j ∧ j.state = "Running" ∧ j.jtype ≠ "INTERACTIVE"

theorem ask_cases (db : DB) (user sig : String) (jid : Nat) :
    (CanSignal db user jid ∧ askCheckpoint db jid (some sig) user = (0, addEvent db "CHECKPOINT" jid)) ∨
    (¬ CanSignal db user jid ∧ (askCheckpoint db jid (some sig) user).1 > 0 ∧ (askCheckpoint db jid (some sig) user).2 = db) := by
  rcases askCheckpoint_spec db jid (some sig) user with ⟨h1, h2, _⟩ | h
  · left
    refine ⟨h1, ?_⟩
    obtain ⟨j, hj, hu, hs, hi⟩ := h1
    unfold askCheckpoint
    rw [hj]
    dsimp only
    rw [if_neg hi, if_pos (show _ ∨ _ ∨ _ from hu), if_pos hs]
  · exact Or.inr h

/-- The events of a signal to a job. -/
def signalEvents (n : Nodes) (checkpoint : Bool) (j : Nat) : List Event :=
  [⟨"CHECKPOINT", j, true, []⟩, ⟨(if checkpoint then "CHECKPOINT" else "SIG") ++ (if n.answers j then "_SUCCESS" else "_ERROR"), j, true, []⟩]

/-- The job has a host to connect to. -/
def HasHost (db : DB) (n : Nodes) (jid : Nat) : Prop := n.hosts jid ≠ [] ∨ ∃ j, db.job? jid = some j ∧ ("cosystem" ∈ j.types ∨ "deploy" ∈ j.types)

theorem noHost_iff (db : DB) (n : Nodes) (jid : Nat) :
    ("cosystem" ∉ typesOf db jid ∧ "deploy" ∉ typesOf db jid ∧ n.hosts jid = []) ↔ ¬ HasHost db n jid := by
  unfold HasHost typesOf
  cases hj : db.job? jid with
  | none => simp
  | some j =>
    simp only [Option.some.injEq, exists_eq_left', not_or, ne_eq, Classical.not_not]
    constructor
    · rintro ⟨a, b, c⟩; exact ⟨c, a, b⟩
    · rintro ⟨c, a, b⟩; exact ⟨a, b, c⟩

theorem signalCode_ne (n : Nat) : signalCode n ≠ 0 := by
  unfold signalCode
  by_cases h : n = 1
  · rw [if_pos h]; decide
  · rw [if_neg h]
    by_cases h : n = 3
    · rw [if_pos h]; decide
    · rw [if_neg h]; decide

open Classical in
theorem signalLoop_spec (n : Nodes) (checkpoint : Bool) (user : String) (db0 : DB) : ∀ (ids : List Nat) (db : DB) (ex : List Int), db.jobs = db0.jobs →
    (∀ j ∈ ids, CanSignal db0 user j → HasHost db0 n j) →
    (signalLoop n checkpoint user db ex ids).raised = false ∧
    (signalLoop n checkpoint user db ex ids).db =
      { db with events := db.events ++ (ids.filter (fun j => decide (CanSignal db0 user j))).flatMap (signalEvents n checkpoint) } ∧
    ∃ ex', (signalLoop n checkpoint user db ex ids).ret = ⟨ex ++ ex', 0⟩ ∧ ((∀ e ∈ ex', e = 0) ↔ ∀ j ∈ ids, CanSignal db0 user j ∧ n.answers j = true)
  | [], db, ex, _, _ => ⟨rfl, by simp [signalLoop], [], by simp [signalLoop], by simp⟩
  | j :: ids, db, ex, hj, h => by
    have hjob : db.job? = db0.job? := by funext x; unfold DB.job?; rw [hj]
    have hc : CanSignal db user j ↔ CanSignal db0 user j := by unfold CanSignal; rw [hjob]
    have hh : HasHost db n j ↔ HasHost db0 n j := by unfold HasHost; rw [hjob]
    have h' : ∀ k ∈ ids, CanSignal db0 user k → HasHost db0 n k := fun k hk => h k (List.mem_cons_of_mem _ hk)
    rw [signalLoop]
    rcases ask_cases db user (if checkpoint then "SIGUSR2" else "SIGURG") j with ⟨h1, h2⟩ | ⟨h1, h2, h3⟩
    · rw [h2, if_neg (by simp)]
      have hhost := h j List.mem_cons_self (hc.1 h1)
      rw [if_neg (fun hx => (noHost_iff db n j).1 hx (hh.2 hhost))]
      cases ha : n.answers j with
      | true =>
        rw [if_pos rfl]
        obtain ⟨i1, i2, ex', i3, i4⟩ := signalLoop_spec n checkpoint user db0 ids
          (addEvent (addEvent db "CHECKPOINT" j) (if checkpoint then "CHECKPOINT_SUCCESS" else "SIG_SUCCESS") j) (ex ++ [0, 0]) hj h'
        refine ⟨i1, ?_, 0 :: 0 :: ex', by rw [i3]; simp, ?_⟩
        · rw [i2, List.filter_cons_of_pos (by simpa using hc.1 h1), List.flatMap_cons]
          cases checkpoint <;> simp [addEvent, signalEvents, ha]
        · simp only [List.mem_cons, forall_eq_or_imp, true_and, i4]
          exact ⟨fun g => ⟨⟨hc.1 h1, ha⟩, g⟩, fun g => g.2⟩
      | false =>
        rw [if_neg (by simp)]
        obtain ⟨i1, i2, ex', i3, i4⟩ := signalLoop_spec n checkpoint user db0 ids
          (addEvent (addEvent db "CHECKPOINT" j) (if checkpoint then "CHECKPOINT_ERROR" else "SIG_ERROR") j) (ex ++ [0, 0, 3]) hj h'
        refine ⟨i1, ?_, 0 :: 0 :: 3 :: ex', by rw [i3]; simp, ?_⟩
        · rw [i2, List.filter_cons_of_pos (by simpa using hc.1 h1), List.flatMap_cons]
          cases checkpoint <;> simp [addEvent, signalEvents, ha]
        · constructor
          · intro g; exact absurd (g 3 (by simp)) (by decide)
          · intro g; have := (g j List.mem_cons_self).2; rw [ha] at this; exact absurd this (by simp)
    · rw [if_pos h2, h3]
      obtain ⟨i1, i2, ex', i3, i4⟩ := signalLoop_spec n checkpoint user db0 ids db
        (ex ++ [0, 0, signalCode (askCheckpoint db j (some (if checkpoint then "SIGUSR2" else "SIGURG")) user).1]) hj h'
      refine ⟨i1, ?_, 0 :: 0 :: signalCode (askCheckpoint db j (some (if checkpoint then "SIGUSR2" else "SIGURG")) user).1 :: ex', by rw [i3]; simp, ?_⟩
      · rw [i2, List.filter_cons_of_neg (by simpa using fun g => h1 (hc.2 g))]
      · constructor
        · intro g
          exact absurd (g (signalCode (askCheckpoint db j (some (if checkpoint then "SIGUSR2" else "SIGURG")) user).1)
            (List.mem_cons_of_mem _ (List.mem_cons_of_mem _ List.mem_cons_self))) (signalCode_ne _)
        · intro g; exact absurd (hc.2 (g j List.mem_cons_self).1) h1

open Classical in
/-- **C78, oardel -c and -s.** When the jobs to which the signal can be sent have a host, each of them gets the request and its result, the others nothing; the
status is 0 exactly when every job could be asked and answered. -/
theorem signal_partial (db : DB) (n : Nodes) (checkpoint : Bool) (user : String) (s : Sel) (ids : List Nat) (hs : select s = .ok ids)
    (h : ∀ j ∈ ids, CanSignal db user j → HasHost db n j) :
    (oardelSignal db n checkpoint user s).raised = false ∧
    (oardelSignal db n checkpoint user s).db =
      { db with events := db.events ++ (ids.filter (fun j => decide (CanSignal db user j))).flatMap (signalEvents n checkpoint) } ∧
    ((exitValue (oardelSignal db n checkpoint user s).ret).1 = 0 ↔ ∀ j ∈ ids, CanSignal db user j ∧ n.answers j = true) := by
  unfold oardelSignal
  rw [hs]
  dsimp only
  obtain ⟨h1, h2, ex, h3, h4⟩ := signalLoop_spec n checkpoint user db ids db [] rfl h
  refine ⟨h1, h2, ?_⟩
  rw [h3, List.nil_append, (exit_spec _).1, h4]

/-- C78 (violated). One would expect `oardel -s` to record a request of signal: it records a request of checkpoint. -/
theorem signal_event_violated (db : DB) (n : Nodes) (user : String) (jid : Nat) (h : CanSignal db user jid) (hh : HasHost db n jid) :
    (oardelSignal db n false user { ids := [jid] }).db.events = db.events ++ [⟨"CHECKPOINT", jid, true, []⟩,
      ⟨"SIG" ++ (if n.answers jid then "_SUCCESS" else "_ERROR"), jid, true, []⟩] := by
  have hs : select { ids := [jid] } = .ok [jid] := by simp [select]
  rw [(signal_partial db n false user _ [jid] hs (by intro j hj _; rw [List.mem_singleton.1 hj]; exact hh)).2.1]
  simp [h, signalEvents]

/-- C78 (violated). A running job without host (its resources are not of the default type) makes the command raise, once its request has been registered; the
jobs after it are left. -/
theorem signal_raises_violated (db : DB) (n : Nodes) (checkpoint : Bool) (user : String) (s : Sel) (jid : Nat) (ids : List Nat)
    (hs : select s = .ok (jid :: ids)) (h : CanSignal db user jid) (hh : ¬ HasHost db n jid) :
    (oardelSignal db n checkpoint user s).raised = true ∧
    (oardelSignal db n checkpoint user s).db = { db with events := db.events ++ [⟨"CHECKPOINT", jid, true, []⟩] } := by
  unfold oardelSignal
  rw [hs]
  dsimp only
  rw [signalLoop]
  rcases ask_cases db user (if checkpoint then "SIGUSR2" else "SIGURG") jid with ⟨_, h2⟩ | ⟨h1, _, _⟩
  · rw [h2, if_neg (by simp), if_pos ((noHost_iff db n jid).2 hh)]
    exact ⟨rfl, rfl⟩
  · exact absurd h h1

/-! ## Forced termination -/

/-- The job has been finishing for too long. -/
def Stuck (db : DB) (now maxd : Int) (jid : Nat) : Prop :=
  (∃ j, db.job? jid = some j ∧ j.state = "Finishing") ∧
    maxd < ((db.log.filter (fun r => r.jid == jid && r.state == "Finishing")).map (fun r => (if r.stop = 0 then now else r.stop) - r.start)).sum

open Classical in
theorem forceLoop_spec (now maxd : Int) (db0 : DB) : ∀ (ids : List Nat) (db : DB) (ex : List Int), db.jobs = db0.jobs → db.log = db0.log →
    (∀ j ∈ ids, (db0.job? j).isSome) →
    ∃ ex', forceLoop now maxd db ex ids =
      ({ db with events := db.events ++ (ids.filter (fun j => decide (Stuck db0 now maxd j))).map (fun j => ⟨"FORCE_TERMINATE_FINISHING_JOB", j, true, []⟩) },
        ex ++ ex', true) ∧ ((∀ e ∈ ex', e = 0) ↔ ∀ j ∈ ids, Stuck db0 now maxd j)
  | [], db, ex, _, _, _ => ⟨[], by simp [forceLoop], by simp⟩
  | j :: ids, db, ex, hj, hl, h => by
    have hjob : db.job? = db0.job? := by funext x; unfold DB.job?; rw [hj]
    have hd : durationIn db j "Finishing" now = durationIn db0 j "Finishing" now := by unfold durationIn; rw [hl]
    have h' : ∀ k ∈ ids, (db0.job? k).isSome := fun k hk => h k (List.mem_cons_of_mem _ hk)
    rw [forceLoop]
    cases hx : db.job? j with
    | none => rw [hjob] at hx; have := h j List.mem_cons_self; rw [hx] at this; exact absurd this (by simp)
    | some row =>
      dsimp only
      rw [hjob] at hx
      by_cases hs : row.state = "Finishing"
      · rw [if_pos hs]
        by_cases ht : durationIn db j "Finishing" now > maxd
        · rw [if_pos ht]
          have hst : Stuck db0 now maxd j := ⟨⟨row, hx, hs⟩, by rw [hd] at ht; exact ht⟩
          obtain ⟨ex', i1, i2⟩ := forceLoop_spec now maxd db0 ids (addEvent db "FORCE_TERMINATE_FINISHING_JOB" j) (ex ++ [0, 0]) hj hl h'
          refine ⟨0 :: 0 :: ex', ?_, ?_⟩
          · rw [i1, List.filter_cons_of_pos (by simpa using hst)]
            simp [addEvent]
          · simp only [List.mem_cons, forall_eq_or_imp, true_and, i2]
            exact ⟨fun g => ⟨hst, g⟩, fun g => g.2⟩
        · rw [if_neg ht]
          have hst : ¬ Stuck db0 now maxd j := fun g => ht (by rw [hd]; exact g.2)
          obtain ⟨ex', i1, i2⟩ := forceLoop_spec now maxd db0 ids db (ex ++ [0, 11]) hj hl h'
          refine ⟨0 :: 11 :: ex', ?_, ?_⟩
          · rw [i1, List.filter_cons_of_neg (by simpa using hst)]
            simp
          · constructor
            · intro g; exact absurd (g 11 (by simp)) (by decide)
            · intro g; exact absurd (g j List.mem_cons_self) hst
      · rw [if_neg hs]
        have hst : ¬ Stuck db0 now maxd j := by
          rintro ⟨⟨k, k1, k2⟩, _⟩
          rw [hx] at k1
          injection k1 with k1
          exact hs (k1 ▸ k2)
        obtain ⟨ex', i1, i2⟩ := forceLoop_spec now maxd db0 ids db (ex ++ [0, 10]) hj hl h'
        refine ⟨0 :: 10 :: ex', ?_, ?_⟩
        · rw [i1, List.filter_cons_of_neg (by simpa using hst)]
          simp
        · constructor
          · intro g; exact absurd (g 10 (by simp)) (by decide)
          · intro g; exact absurd (g j List.mem_cons_self) hst

open Classical in
/-- **C78, forced termination.** For the administrators, and when all the jobs exist, the jobs that have been finishing for longer than the delay get the event,
the others nothing; other users are refused. -/
theorem force_partial (db : DB) (now maxd : Int) (user : String) (up : Bool) (s : Sel) (ids : List Nat) (hs : select s = .ok ids)
    (h : ∀ j ∈ ids, (db.job? j).isSome) :
    (user = "oar" ∨ user = "root" →
      (oardelForce db now maxd user up s).db =
        { db with events := db.events ++ (ids.filter (fun j => decide (Stuck db now maxd j))).map (fun j => ⟨"FORCE_TERMINATE_FINISHING_JOB", j, true, []⟩) } ∧
      (oardelForce db now maxd user up s).sent = ["ChState"] ∧
      ((exitValue (oardelForce db now maxd user up s).ret).1 = 0 ↔ up = true ∧ ∀ j ∈ ids, Stuck db now maxd j)) ∧
    (user ≠ "oar" → user ≠ "root" → (oardelForce db now maxd user up s).db = db ∧ (exitValue (oardelForce db now maxd user up s).ret).1 = 8) := by
  unfold oardelForce
  rw [hs]
  dsimp only
  constructor
  · intro hu
    rw [if_neg (by rintro ⟨h1, h2⟩; rcases hu with h | h <;> contradiction)]
    obtain ⟨ex, i1, i2⟩ := forceLoop_spec now maxd db ids db [] rfl rfl h
    rw [i1, List.nil_append]
    dsimp only
    rw [if_pos rfl]
    refine ⟨rfl, rfl, ?_⟩
    rw [(exit_spec _).1]
    cases up with
    | true => simpa using i2
    | false =>
      simp only [Bool.false_eq_true, if_false, false_and, iff_false]
      intro g; exact absurd (g 2 (by simp)) (by decide)
  · intro h1 h2
    rw [if_pos ⟨h1, h2⟩]
    exact ⟨rfl, rfl⟩

/-- C78 (violated). A job that does not exist makes the command raise: the jobs after it are left and the server is not told of those before it. -/
theorem force_raises_violated (db : DB) (now maxd : Int) (up : Bool) (s : Sel) (jid : Nat) (ids : List Nat) (hs : select s = .ok (jid :: ids))
    (h : db.job? jid = none) : (oardelForce db now maxd "root" up s).raised = true ∧ (oardelForce db now maxd "root" up s).db = db ∧
      (oardelForce db now maxd "root" up s).sent = [] := by
  unfold oardelForce
  rw [hs]
  dsimp only
  rw [if_neg (by simp), forceLoop, h]
  exact ⟨rfl, rfl, rfl⟩

/-! ## Concrete cases -/

/-- Two waiting jobs of Bob, one running job of Alice. -/
def exDb : DB := ⟨[⟨1, "bob", "Waiting", "PASSIVE", "None", 0, 0, false, [], none, 0, 60, 0, 0⟩, ⟨2, "alice", "Running", "PASSIVE", "None", 10, 0, false, [], none, 3, 60, 0, 0⟩,
  ⟨3, "bob", "Waiting", "PASSIVE", "None", 0, 0, false, [], none, 0, 60, 0, 0⟩], [], [], [], []⟩

example : (oardel exDb 20 "bob" true { ids := [1, 2, 3, 9] }).db.frags = [⟨1, 20, "LEON"⟩, ⟨3, 20, "LEON"⟩] ∧
    (oardel exDb 20 "bob" true { ids := [1, 2, 3, 9] }).sent = ["ChState", "Qdel"] ∧
    (exitValue (oardel exDb 20 "bob" true { ids := [1, 2, 3, 9] }).ret).1 = 15 ∧
    (exitValue (oardel exDb 20 "bob" true { ids := [1, 3] }).ret).1 = 0 := by decide +kernel

example : CanHold exDb false false false "bob" 1 ∧ CanHold exDb false false false "bob" 3 :=
  ⟨⟨_, rfl, Or.inl rfl, Or.inl rfl, by simp⟩, ⟨_, rfl, Or.inl rfl, Or.inl rfl, by simp⟩⟩

/-- Job 3 could be held, but job 2 comes before it; job 1 has its event and nobody is told. -/
example : (oarhold exDb false false false "bob" { ids := [1, 2, 3] }).db.events = [⟨"HOLD_WAITING_JOB", 1, true, []⟩] ∧
    (oarhold exDb false false false "bob" { ids := [1, 2, 3] }).sent = [] := by decide +kernel

example : CanSignal exDb "alice" 2 := ⟨_, rfl, Or.inl rfl, rfl, by decide⟩

example : (oardelSignal exDb ⟨fun _ => ["n1"], fun _ => true⟩ true "alice" { ids := [1, 2] }).db.events =
    [⟨"CHECKPOINT", 2, true, []⟩, ⟨"CHECKPOINT_SUCCESS", 2, true, []⟩] := by decide +kernel

end Oar.Cli
