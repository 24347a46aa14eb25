import Verif.ApiSessionSpec

/-!
# The requests of the API about resources (C91)
-/

namespace Oar.ApiSession

open Oar.ApiSession.Spec

/-- **C91.** Only oar and root can create, change or delete a resource: for another user nothing changes, and the refusal is told. -/
theorem not_admin (w : World) (s : Session) {user : String} (h : user ≠ "oar" ∧ user ≠ "root") :
    (∀ a cs, (step w s (.create user a (some cs))) = (s, .badUser)) ∧ (∀ a, (step w s (.create user a none)) = (s, .http 500)) ∧
    (∀ i st, step w s (.state user i st) = (s, .badUser)) ∧ (∀ i, i ≠ 0 → step w s (.delete user i) = (s, .exit 4)) := by
  have ha : admin user = false := by
    unfold admin
    rw [Bool.or_eq_false_iff]
    exact ⟨by simpa using h.1, by simpa using h.2⟩
  refine ⟨?_, ?_, ?_, ?_⟩
  · intro a cs
    show create w s user a (some cs) = _
    unfold create
    dsimp only
    rw [if_pos ha]
  · intro a; rfl
  · intro i st
    show state s user i st = _
    unfold state
    rw [if_pos ha]
  · intro i hi
    show delete s user i = _
    unfold delete
    rw [if_neg hi, if_pos ha]

theorem find_map_state (id : Nat) (st : String) (j : Nat) : ∀ (l : List Row),
    (l.map (fun r => if r.id = id then { r with state := st } else r)).find? (fun r => r.id == j) =
      (l.find? (fun r => r.id == j)).map (fun r => if r.id = id then { r with state := st } else r)
  | [] => rfl
  | r :: l => by
    have e : (if r.id = id then { r with state := st } else r : Row).id = r.id := by split <;> rfl
    rw [List.map_cons, List.find?_cons, List.find?_cons, e]
    by_cases h : (r.id == j) = true
    · rw [h]; rfl
    · have h : (r.id == j) = false := by simpa using h
      rw [h]
      exact find_map_state id st j l

/-- The states of a resource are the four of the manual. -/
theorem states_exact (st : String) : st ∈ states ↔ st = "Alive" ∨ st = "Absent" ∨ st = "Suspected" ∨ st = "Dead" := by
  simp [states]

/-- **C91.** A change of state: the API shows it for that resource and for no other, and the log has one present state for it, the new one. -/
theorem state_exact (w : World) {s : Session} (hf : s.failed = false) {user : String} (ha : admin user = true) {st : String} (hst : st ∈ states) (id : Nat) :
    (step w s (.state user id st)).2 = .ok ∧
    (∀ r, shown s id = some r → shown (step w s (.state user id st)).1 id = some { r with state := st }) ∧
    (∀ j, j ≠ id → shown (step w s (.state user id st)).1 j = shown s j) ∧
    (∀ l ∈ (step w s (.state user id st)).1.work.log, l.1 = id → l.2.2 = true → l = (id, st, true)) ∧
    (id, st, true) ∈ (step w s (.state user id st)).1.work.log ∧
    (∀ l, l.1 ≠ id → (l ∈ (step w s (.state user id st)).1.work.log ↔ l ∈ s.work.log)) := by
  have e : step w s (.state user id st) =
      ({ s with work := setState s.work id st, locked := if s.work.rows.any (fun r => r.id == id) then id :: s.locked else s.locked }, .ok) := by
    show state s user id st = _
    unfold state
    rw [if_neg (by rw [ha]; simp), if_neg (fun h => h hst), if_neg (by rw [hf]; simp)]
  rw [e]
  refine ⟨rfl, ?_, ?_, ?_, ?_, ?_⟩
  · intro r hr
    show (setState s.work id st).rows.find? _ = _
    unfold setState
    dsimp only
    rw [find_map_state]
    have hr : s.work.rows.find? (fun r => r.id == id) = some r := hr
    have hid : r.id = id := by have := List.find?_some hr; simpa using this
    rw [hr, Option.map_some, if_pos hid]
  · intro j hj
    show (setState s.work id st).rows.find? _ = s.work.rows.find? _
    unfold setState
    dsimp only
    rw [find_map_state]
    cases hq : s.work.rows.find? (fun r => r.id == j) with
    | none => rfl
    | some r =>
      have hid : r.id = j := by have := List.find?_some hq; simpa using this
      rw [Option.map_some, if_neg (by rw [hid]; exact hj)]
  · intro l hl h1 h2
    have hl : l ∈ s.work.log.map (fun l => if l.1 = id then (l.1, l.2.1, false) else l) ++ [(id, st, true)] := hl
    rcases List.mem_append.1 hl with hl | hl
    · obtain ⟨k, _, ek⟩ := List.mem_map.1 hl
      by_cases hk : k.1 = id
      · rw [if_pos hk] at ek
        rw [← ek] at h2; cases h2
      · rw [if_neg hk] at ek
        exact absurd (ek ▸ h1) hk
    · exact List.mem_singleton.1 hl
  · show (id, st, true) ∈ s.work.log.map _ ++ [(id, st, true)]
    simp
  · intro l h1
    show l ∈ s.work.log.map (fun l => if l.1 = id then (l.1, l.2.1, false) else l) ++ [(id, st, true)] ↔ _
    constructor
    · intro hl
      rcases List.mem_append.1 hl with hl | hl
      · obtain ⟨k, hk, ek⟩ := List.mem_map.1 hl
        by_cases hk1 : k.1 = id
        · rw [if_pos hk1] at ek
          rw [← ek] at h1
          exact absurd hk1 h1
        · rw [if_neg hk1] at ek
          exact ek ▸ hk
      · rw [List.mem_singleton.1 hl] at h1
        exact absurd rfl h1
    · intro hl
      refine List.mem_append_left _ (List.mem_map.2 ⟨l, hl, ?_⟩)
      rw [if_neg h1]

/-- **C91.** A creation: a new number, the address and the columns given; the other resources are kept. -/
theorem create_exact (w : World) {s : Session} (hf : s.failed = false) (hs : Sound s.work) {user : String} (ha : admin user = true) (address : String)
    {cs : List (String × String)} (hk : ∀ p ∈ cs, w.known p.1 = true ∧ w.accepts p.1 p.2 = true) :
    (step w s (.create user address (some cs))).2 = .created s.work.next ∧ shown s s.work.next = none ∧
    (∃ r, shown (step w s (.create user address (some cs))).1 s.work.next = some r ∧ r.id = s.work.next ∧
      ((∀ p ∈ cs, p.1 ≠ "network_address") → r.address = address) ∧ ((∀ p ∈ cs, p.1 ≠ "state") → r.state = "Alive") ∧
      (∀ p, p ∈ r.columns ↔ p ∈ cs ∧ p.1 ≠ "network_address" ∧ p.1 ≠ "state")) ∧
    (∀ j, j ≠ s.work.next → shown (step w s (.create user address (some cs))).1 j = shown s j) ∧
    Sound (step w s (.create user address (some cs))).1.work := by
  have hnone : shown s s.work.next = none := by
    unfold shown
    rw [List.find?_eq_none]
    intro r hr
    have := hs.2 r hr
    simp; omega
  have e : step w s (.create user address (some cs)) =
      ({ s with work := { s.work with rows := s.work.rows ++ [newRow s.work.next address cs], next := s.work.next + 1 } }, .created s.work.next) := by
    show create w s user address (some cs) = _
    unfold create
    dsimp only
    rw [if_neg (by rw [ha]; simp), if_neg, if_neg (by rw [hf]; simp), if_neg]
    · rw [List.all_eq_true.2 (fun p hp => (hk p hp).2)]; simp
    · rw [List.all_eq_true.2 (fun p hp => (hk p hp).1)]; simp
  rw [e]
  refine ⟨rfl, hnone, ⟨newRow s.work.next address cs, ?_, rfl, ?_, ?_, ?_⟩, ?_, ?_, ?_⟩
  · show (s.work.rows ++ [newRow s.work.next address cs]).find? _ = _
    have hnone' : s.work.rows.find? (fun r => r.id == s.work.next) = none := hnone
    rw [List.find?_append, hnone']
    rw [Option.none_or]
    simp [newRow]
  · intro h
    unfold newRow
    dsimp only
    rw [List.find?_eq_none.2]
    · rfl
    · intro p hp; simpa using h p (List.mem_reverse.1 hp)
  · intro h
    unfold newRow
    dsimp only
    rw [List.find?_eq_none.2]
    · rfl
    · intro p hp; simpa using h p (List.mem_reverse.1 hp)
  · intro p
    unfold newRow
    dsimp only
    rw [List.mem_filter]
    simp
  · intro j hj
    show (s.work.rows ++ [newRow s.work.next address cs]).find? _ = s.work.rows.find? _
    rw [List.find?_append]
    have : [newRow s.work.next address cs].find? (fun r => r.id == j) = none := by
      rw [List.find?_eq_none]
      intro r hr
      rw [List.mem_singleton.1 hr]
      show ¬ (s.work.next == j) = true
      simpa using fun h => hj h.symm
    rw [this, Option.or_none]
  · show ((s.work.rows ++ [newRow s.work.next address cs]).map (·.id)).Nodup
    rw [List.map_append, List.nodup_append]
    refine ⟨hs.1, by simp, ?_⟩
    intro a ha' b hb hab
    obtain ⟨r, hr, er⟩ := List.mem_map.1 ha'
    obtain ⟨q, hq, eq⟩ := List.mem_map.1 hb
    rw [List.mem_singleton.1 hq] at eq
    have := hs.2 r hr
    have e2 : s.work.next = b := eq
    omega
  · intro r hr
    show r.id < s.work.next + 1
    rcases List.mem_append.1 hr with hr | hr
    · have := hs.2 r hr; omega
    · rw [List.mem_singleton.1 hr]
      show s.work.next < s.work.next + 1
      omega

theorem find_filter_id (id j : Nat) : ∀ (l : List Row),
    (l.filter (fun r => r.id != id)).find? (fun r => r.id == j) = if j = id then none else l.find? (fun r => r.id == j)
  | [] => by simp
  | r :: l => by
    have ih := find_filter_id id j l
    rw [List.filter_cons, List.find?_cons]
    by_cases hr : r.id = id
    · rw [if_neg (by simp [hr]), ih]
      by_cases hj : j = id
      · rw [if_pos hj, if_pos hj]
      · rw [if_neg hj, if_neg hj]
        have : (r.id == j) = false := by rw [beq_eq_false_iff_ne, hr]; exact fun e => hj e.symm
        rw [this]
    · rw [if_pos (by simp [hr]), List.find?_cons]
      by_cases h2 : (r.id == j) = true
      · have e := eq_of_beq h2
        rw [h2, if_neg (by rw [← e]; exact hr)]
      · have h2 : (r.id == j) = false := by simpa using h2
        rw [h2]
        exact ih

/-- **C91.** A deletion of a Dead resource is seen by all the programs at once, with all that the API had acknowledged before; a resource in another state is kept, the code is 3. -/
theorem delete_exact (w : World) {s : Session} (hf : s.failed = false) {user : String} (ha : admin user = true) {id : Nat} (hid : id ≠ 0) {r : Row}
    (hr : shown s id = some r) :
    (r.state = "Dead" → (step w s (.delete user id)).2 = .exit 0 ∧ seen (step w s (.delete user id)).1 id = none ∧
      (∀ j, j ≠ id → seen (step w s (.delete user id)).1 j = shown s j) ∧ (∀ l ∈ (step w s (.delete user id)).1.committed.log, l.1 ≠ id) ∧
      Fresh (step w s (.delete user id)).1) ∧
    (r.state ≠ "Dead" → step w s (.delete user id) = (s, .exit 3)) := by
  have hr' : s.work.rows.find? (fun r => r.id == id) = some r := hr
  constructor
  · intro hd
    have e : step w s (.delete user id) =
        (commit { s with work := { s.work with rows := s.work.rows.filter (fun r => r.id != id), log := s.work.log.filter (fun l => l.1 != id) } }, .exit 0) := by
      show delete s user id = _
      unfold delete
      rw [if_neg hid, if_neg (by rw [ha]; simp), if_neg (by rw [hf]; simp), hr']
      dsimp only
      rw [if_pos hd]
    rw [e]
    refine ⟨rfl, ?_, ?_, ?_, ⟨rfl, rfl, rfl⟩⟩
    · show (s.work.rows.filter (fun r => r.id != id)).find? _ = none
      rw [find_filter_id, if_pos rfl]
    · intro j hj
      show (s.work.rows.filter (fun r => r.id != id)).find? _ = s.work.rows.find? _
      rw [find_filter_id, if_neg hj]
    · intro l hl
      have := (List.mem_filter.1 hl).2
      simpa using this
  · intro hd
    show delete s user id = _
    unfold delete
    rw [if_neg hid, if_neg (by rw [ha]; simp), if_neg (by rw [hf]; simp), hr']
    dsimp only
    rw [if_neg hd]

/-- **C91.** Requests that the database has no reason to refuse leave the session usable. -/
theorem healthy_kept (w : World) : ∀ (rs : List Request) (s : Session), s.failed = false → (∀ r ∈ rs, Sane w r) → (run w s rs).failed = false
  | [], _, h, _ => h
  | r :: rs, s, h, hs => by
    refine healthy_kept w rs _ ?_ (fun q hq => hs q (List.mem_cons_of_mem _ hq))
    have hr := hs r List.mem_cons_self
    cases r with
    | list o l =>
      show (listPage s o l).1.failed = false
      unfold listPage
      split
      · exact h
      · rw [if_neg (by rw [h]; simp), if_neg (by have := hr.1; have := hr.2.1; have := hr.2.2; omega)]
        split <;> exact h
    | busy =>
      show (if s.failed then (s, Answer.http 500) else (s, Answer.ok)).1.failed = false
      split <;> exact h
    | «show» i => exact h
    | create u a cs =>
      show (create w s u a cs).1.failed = false
      unfold create
      cases cs with
      | none => exact h
      | some l =>
        dsimp only
        split
        · exact h
        split
        · exact h
        rename_i hk
        rw [if_neg (by rw [h]; simp), if_neg]
        · exact h
        · have hk : l.all (fun p => w.known p.1) = true := by simpa using hk
          rw [List.all_eq_true.2 (fun p hp => hr l rfl p hp (List.all_eq_true.1 hk p hp))]
          simp
    | state u i st =>
      show (state s u i st).1.failed = false
      unfold state
      split
      · exact h
      split
      · exact h
      split
      · exact h
      · exact h
    | delete u i =>
      show (delete s u i).1.failed = false
      unfold delete
      split
      · exact h
      split
      · exact h
      split
      · exact h
      split
      · exact h
      split
      · rfl
      · exact h
    | other ok c =>
      have hr : ok = true := hr
      show (if s.failed then (s, Answer.http 500) else if ok = false then (fail s, Answer.http 500) else (if c then commit s else s, Answer.ok)).1.failed = false
      rw [if_neg (by rw [h]; simp), if_neg (by rw [hr]; simp)]
      cases c
      · exact h
      · rfl
    | restart => rfl

/-! ## What does not hold -/

/-- **C91 does not hold.** A change of state that is acknowledged is not recorded: the other programs see the old state, and a stop of the server loses the change. -/
theorem state_violated (w : World) {s : Session} (hf : s.failed = false) {user : String} (ha : admin user = true) {st : String} (hst : st ∈ states) (id : Nat) :
    (step w s (.state user id st)).2 = .ok ∧ (∀ j, seen (step w s (.state user id st)).1 j = seen s j) ∧
    (∀ j, shown (restart (step w s (.state user id st)).1) j = seen s j) := by
  have h := (state_exact w hf ha hst id).1
  refine ⟨h, ?_, ?_⟩
  all_goals
    intro j
    show (state s user id st).1.committed.rows.find? _ = _
    unfold state
    rw [if_neg (by rw [ha]; simp), if_neg (fun h => h hst), if_neg (by rw [hf]; simp)]
    rfl

/-- **C91 does not hold.** A creation that is acknowledged is not recorded either. -/
theorem create_violated (w : World) {s : Session} (hf : s.failed = false) (hs : Sound s.work) (hc : Sound s.committed) (hn : s.committed.next ≤ s.work.next) {user : String}
    (ha : admin user = true) (address : String) {cs : List (String × String)} (hk : ∀ p ∈ cs, w.known p.1 = true ∧ w.accepts p.1 p.2 = true) :
    (step w s (.create user address (some cs))).2 = .created s.work.next ∧ seen (step w s (.create user address (some cs))).1 s.work.next = none ∧
    shown (restart (step w s (.create user address (some cs))).1) s.work.next = none := by
  have h := (create_exact w hf hs ha address hk).1
  have hnone : s.committed.rows.find? (fun r => r.id == s.work.next) = none := by
    rw [List.find?_eq_none]
    intro r hr
    have := hc.2 r hr
    simp; omega
  have e : (step w s (.create user address (some cs))).1.committed = s.committed := by
    show (create w s user address (some cs)).1.committed = _
    unfold create
    dsimp only
    repeat' split
    all_goals rfl
  refine ⟨h, ?_, ?_⟩
  · unfold seen; rw [e]; exact hnone
  · show (step w s (.create user address (some cs))).1.committed.rows.find? _ = _
    rw [e]; exact hnone

/-- **C91 does not hold.** The log of the states has no row for a resource made by the API. -/
theorem create_log_violated (w : World) (s : Session) (user address : String) (cs : Option (List (String × String))) :
    (step w s (.create user address cs)).1.work.log = s.work.log := by
  show (create w s user address cs).1.work.log = _
  unfold create
  repeat' split
  all_goals rfl

/-- What is pending becomes visible with the first request that commits. -/
theorem pending_committed (w : World) {s : Session} (hf : s.failed = false) :
    ∀ j, seen (step w s (.other true true)).1 j = shown s j := by
  intro j
  show (if s.failed then (s, Answer.http 500) else if true = false then (fail s, Answer.http 500) else (if true then commit s else s, Answer.ok)).1.committed.rows.find? _ = _
  rw [if_neg (by rw [hf]; simp)]
  rfl

/-- Whether a request gives up the locks. -/
def ends : Request → Bool
  | .delete _ _ => true
  | .other _ c => c
  | .restart => true
  | _ => false

/-- **C91 does not hold.** After a change of state of a resource, the other programs that change this resource wait, for as long as no request of the API commits. -/
theorem wait_violated (w : World) {s : Session} (hf : s.failed = false) {user : String} (ha : admin user = true) {st : String} (hst : st ∈ states) {id : Nat} {r : Row}
    (hr : shown s id = some r) : ∀ rs : List Request, (∀ q ∈ rs, ends q = false) → Waits (run w (step w s (.state user id st)).1 rs) id := by
  have h0 : Waits (step w s (.state user id st)).1 id := by
    show id ∈ (state s user id st).1.locked
    unfold state
    rw [if_neg (by rw [ha]; simp), if_neg (fun h => h hst), if_neg (by rw [hf]; simp)]
    show id ∈ (if s.work.rows.any (fun r => r.id == id) then id :: s.locked else s.locked)
    rw [if_pos]
    · exact List.mem_cons_self
    · have hr : s.work.rows.find? (fun r => r.id == id) = some r := hr
      exact List.any_eq_true.2 ⟨r, List.mem_of_find?_eq_some hr, by have := List.find?_some hr; simpa using this⟩
  generalize (step w s (.state user id st)).1 = s' at h0
  intro rs
  induction rs generalizing s' with
  | nil => intro _; exact h0
  | cons q rs ih =>
    intro hq
    refine ih _ ?_ (fun x hx => hq x (List.mem_cons_of_mem _ hx))
    have h1 := hq q List.mem_cons_self
    unfold Waits at h0 ⊢
    cases q with
    | list o l =>
      show id ∈ (listPage s' o l).1.locked
      unfold listPage
      repeat' split
      all_goals exact h0
    | busy =>
      show id ∈ (if s'.failed then (s', Answer.http 500) else (s', Answer.ok)).1.locked
      split <;> exact h0
    | «show» i => exact h0
    | create u a cs =>
      show id ∈ (create w s' u a cs).1.locked
      unfold create
      repeat' split
      all_goals exact h0
    | state u i st =>
      show id ∈ (state s' u i st).1.locked
      unfold state
      split
      · exact h0
      split
      · exact h0
      split
      · exact h0
      · show id ∈ (if s'.work.rows.any (fun r => r.id == i) then i :: s'.locked else s'.locked)
        split
        · exact List.mem_cons_of_mem _ h0
        · exact h0
    | delete u i => cases h1
    | other ok c =>
      have h1 : c = false := h1
      show id ∈ (if s'.failed then (s', Answer.http 500) else if ok = false then (fail s', Answer.http 500) else (if c then commit s' else s', Answer.ok)).1.locked
      rw [h1]
      repeat' split
      all_goals first
        | exact h0
        | (rename_i h; cases h)
    | restart => cases h1

/-- A failed session: every request that uses the tables is an error, and nothing changes, until the server is started again. -/
theorem stuck (w : World) (s : Session) (hf : s.failed = true) : ∀ r : Request, r ≠ .restart →
    (step w s r).1 = s ∧ (Touches r → (step w s r).2 = .http 500) := by
  intro r hr
  cases r with
  | list o l =>
    show (listPage s o l).1 = s ∧ (0 ≤ o → (listPage s o l).2 = .http 500)
    unfold listPage
    by_cases ho : o < 0
    · rw [if_pos ho]; exact ⟨rfl, fun h => absurd ho (by omega)⟩
    · rw [if_neg ho, if_pos hf]; exact ⟨rfl, fun _ => rfl⟩
  | busy =>
    show (if s.failed then (s, Answer.http 500) else (s, Answer.ok)).1 = s ∧ (True → (if s.failed then (s, Answer.http 500) else (s, Answer.ok)).2 = .http 500)
    rw [if_pos hf]; exact ⟨rfl, fun _ => rfl⟩
  | «show» i => exact ⟨rfl, fun _ => rfl⟩
  | create u a cs =>
    show (create w s u a cs).1 = s ∧ (admin u = true ∧ cs ≠ none → (create w s u a cs).2 = .http 500)
    unfold create
    cases cs with
    | none => exact ⟨rfl, fun _ => rfl⟩
    | some l =>
      dsimp only
      by_cases ha : admin u = false
      · rw [if_pos ha]; exact ⟨rfl, fun h => absurd h.1 (by rw [ha]; simp)⟩
      · rw [if_neg ha]
        by_cases hk : l.all (fun p => w.known p.1) = false
        · rw [if_pos hk]; exact ⟨rfl, fun _ => rfl⟩
        · rw [if_neg hk, if_pos hf]; exact ⟨rfl, fun _ => rfl⟩
  | state u i st =>
    show (state s u i st).1 = s ∧ (admin u = true ∧ st ∈ states → (state s u i st).2 = .http 500)
    unfold state
    by_cases ha : admin u = false
    · rw [if_pos ha]; exact ⟨rfl, fun h => absurd h.1 (by rw [ha]; simp)⟩
    · rw [if_neg ha]
      by_cases hst : st ∉ states
      · rw [if_pos hst]; exact ⟨rfl, fun _ => rfl⟩
      · rw [if_neg hst, if_pos hf]; exact ⟨rfl, fun _ => rfl⟩
  | delete u i =>
    show (delete s u i).1 = s ∧ (admin u = true ∧ i ≠ 0 → (delete s u i).2 = .http 500)
    unfold delete
    by_cases hi : i = 0
    · rw [if_pos hi]; exact ⟨rfl, fun h => absurd hi h.2⟩
    · rw [if_neg hi]
      by_cases ha : admin u = false
      · rw [if_pos ha]; exact ⟨rfl, fun h => absurd h.1 (by rw [ha]; simp)⟩
      · rw [if_neg ha, if_pos hf]; exact ⟨rfl, fun _ => rfl⟩
  | other ok c =>
    show (if s.failed then (s, Answer.http 500) else _).1 = s ∧ (True → (if s.failed then (s, Answer.http 500) else _).2 = .http 500)
    rw [if_pos hf]; exact ⟨rfl, fun _ => rfl⟩
  | restart => exact absurd rfl hr

/-- **C91 does not hold.** One list with a negative limit, asked by anybody, ends the service: whatever the requests after it, those that use the tables are errors and nothing changes,
until the server is started again. -/
theorem limit_violated (w : World) {s : Session} (hf : s.failed = false) {limit : Int} (hl : limit < 0) (rs : List Request) (hrs : ∀ q ∈ rs, q ≠ .restart) (r : Request)
    (hr : r ≠ .restart) (ht : Touches r) :
    (step w s (.list 0 limit)).2 = .http 500 ∧ (step w (run w (step w s (.list 0 limit)).1 rs) r).2 = .http 500 ∧
    (run w (step w s (.list 0 limit)).1 rs).committed = s.committed := by
  have e : step w s (.list 0 limit) = (fail s, .http 500) := by
    show listPage s 0 limit = _
    unfold listPage
    rw [if_neg (by omega), if_neg (by rw [hf]; simp), if_pos (Or.inl hl)]
  have key : ∀ (rs : List Request) (s' : Session), s'.failed = true → (∀ q ∈ rs, q ≠ .restart) → run w s' rs = s' := by
    intro rs
    induction rs with
    | nil => intro s' _ _; rfl
    | cons q rs ih =>
      intro s' h hq
      show run w (step w s' q).1 rs = s'
      rw [(stuck w s' h q (hq q List.mem_cons_self)).1]
      exact ih s' h (fun x hx => hq x (List.mem_cons_of_mem _ hx))
  rw [e, key rs (fail s) rfl hrs]
  exact ⟨rfl, (stuck w (fail s) rfl r hr).2 ht, rfl⟩

/-- **C91 does not hold.** A resource can never be shown. -/
theorem show_violated (w : World) (s : Session) (id : Nat) : (step w s (.show id)).2 = .http 500 := rfl

/-- **C91 does not hold.** The change of state of a resource that does not exist is a success, and adds a row to the log. -/
theorem unknown_violated (w : World) {s : Session} (hf : s.failed = false) {user : String} (ha : admin user = true) {st : String} (hst : st ∈ states) {id : Nat}
    (hn : shown s id = none) : (step w s (.state user id st)).2 = .ok ∧ (id, st, true) ∈ (step w s (.state user id st)).1.work.log ∧
    shown (step w s (.state user id st)).1 id = none := by
  have h := state_exact w hf ha hst id
  refine ⟨h.1, h.2.2.2.2.1, ?_⟩
  show (state s user id st).1.work.rows.find? _ = none
  unfold state
  rw [if_neg (by rw [ha]; simp), if_neg (fun h => h hst), if_neg (by rw [hf]; simp)]
  show (setState s.work id st).rows.find? _ = none
  unfold setState
  dsimp only
  rw [find_map_state]
  have hn : s.work.rows.find? (fun r => r.id == id) = none := hn
  rw [hn]; rfl

/-- A session with the resource 1; oar sets it Dead, creates another one, and deletes the first. -/
def s0 : Session :=
  let d : Db := { rows := [⟨1, "n1", "Alive", []⟩], log := [(1, "Alive", true)], next := 2 }
  { committed := d, work := d, locked := [], failed := false }
def w0 : World := ⟨fun c => c == "cpuset" || c == "state", fun c v => c == "cpuset" || (c == "state" && states.contains v)⟩

theorem session_example :
    Fresh s0 ∧ Sound s0.work ∧
    (step w0 (run w0 s0 [.state "oar" 1 "Dead"]) (.create "oar" "n2" (some [("cpuset", "3")]))).2 = .created 2 ∧
    seen (run w0 s0 [.state "oar" 1 "Dead", .create "oar" "n2" (some [("cpuset", "3")])]) 2 = none ∧
    (run w0 s0 [.state "oar" 1 "Dead", .create "oar" "n2" (some [("cpuset", "3")]), .delete "oar" 1]).committed.rows = [⟨2, "n2", "Alive", [("cpuset", "3")]⟩] ∧
    (run w0 s0 [.create "oar" "n2" (some [("state", "Broken")])]).failed = true := by
  refine ⟨⟨rfl, rfl, rfl⟩, ⟨by decide, by decide⟩, ?_, ?_, ?_, ?_⟩ <;> decide +kernel

end Oar.ApiSession
