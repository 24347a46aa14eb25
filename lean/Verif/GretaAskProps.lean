import Verif.GretaAskSpec
import Verif.GretaCycle
import Verif.ConnectProps

/-!
# Properties of what Greta reads and asks (C118)
-/

namespace Oar.GretaAsk

open Oar.Greta Oar.Tools Spec

theorem mem_dedup (l : List String) (a : String) : a ∈ Energy.dedup l ↔ a ∈ l := by
  induction l with
  | nil => exact Iff.rfl
  | cons b l ih =>
    unfold Energy.dedup
    rw [List.mem_cons, List.mem_filter, ih, List.mem_cons]
    constructor
    · rintro (h | h)
      · exact .inl h
      · exact .inr h.1
    · rintro (h | h)
      · exact .inl h
      · by_cases e : a = b
        · exact .inl e
        · exact .inr ⟨h, by simpa using e⟩

theorem mem_distinct (l : List (String × String × String)) (a : String × String × String) : a ∈ distinct l ↔ a ∈ l := by
  induction l with
  | nil => exact Iff.rfl
  | cons b l ih =>
    unfold distinct
    rw [List.mem_cons, List.mem_filter, ih, List.mem_cons]
    constructor
    · rintro (h | h)
      · exact .inl h
      · exact .inr h.1
    · rintro (h | h)
      · exact .inl h
      · by_cases e : a = b
        · exact .inl e
        · exact .inr ⟨h, by simpa using e⟩

/-! ## The nodes that are idle -/

theorem occupied_iff (db : Db) (n : String) : n ∈ occupied db ↔ ∃ st, st ∈ occupying ∧ Holds db n st := by
  unfold occupied
  rw [mem_dedup, List.mem_map]
  unfold Holds
  constructor
  · rintro ⟨r, h, rfl⟩
    obtain ⟨hr, h⟩ := List.mem_filter.1 h
    simp only [Bool.and_eq_true, Bool.or_eq_true, beq_iff_eq, List.any_eq_true] at h
    obtain ⟨hal, ⟨m, i⟩, ha, hi, ⟨m', j⟩, hm, hmm, ⟨j', st⟩, hj, hjj, hst⟩ := h
    dsimp only at hi hmm hjj hst
    subst hi hmm hjj
    exact ⟨st, by simpa using hst, r, hr, rfl, hal, m, ha, j, hm, hj⟩
  · rintro ⟨st, hst, r, hr, rfl, hal, m, ha, j, hm, hj⟩
    refine ⟨r, List.mem_filter.2 ⟨hr, ?_⟩, rfl⟩
    simp only [Bool.and_eq_true, Bool.or_eq_true, beq_iff_eq, List.any_eq_true]
    exact ⟨hal, (m, r.id), ha, rfl, (m, j), hm, rfl, (j, st), hj, rfl, by simpa using hst⟩

theorem alive_iff (db : Db) (p : Res → Bool) (n : String) :
    (∃ st nx, (n, st, nx) ∈ nodesWith db p ∧ (st = "Alive" ∨ nx = "Alive")) ↔ IsAlive db p n := by
  unfold nodesWith IsAlive
  constructor
  · rintro ⟨st, nx, h, hal⟩
    rw [mem_distinct, List.mem_map] at h
    obtain ⟨r, hr, e⟩ := h
    obtain ⟨hr, hp⟩ := List.mem_filter.1 hr
    injection e with e1 e2
    injection e2 with e2 e3
    subst e1 e2 e3
    exact ⟨r, hr, rfl, hp, hal⟩
  · rintro ⟨r, hr, rfl, hp, hal⟩
    exact ⟨r.state, r.next, (mem_distinct _ _).2 (List.mem_map.2 ⟨r, List.mem_filter.2 ⟨hr, hp⟩, rfl⟩), hal⟩

theorem idle_iff (db : Db) (classes : List (Nat × (Res → Bool))) (now : Int) (p : Res → Bool) (n : String) :
    n ∈ idleOf (view db classes now) (nodesWith db p) ↔ IsAlive db p n ∧ ∀ st, Holds db n st → st ∉ occupying := by
  rw [mem_idle]
  unfold Idle
  rw [alive_iff]
  show _ ∧ n ∉ occupied db ↔ _
  rw [occupied_iff]
  constructor
  · rintro ⟨h1, h2⟩; exact ⟨h1, fun st h3 h4 => h2 ⟨st, h4, h3⟩⟩
  · rintro ⟨h1, h2⟩; exact ⟨h1, fun ⟨st, h4, h3⟩ => h2 st h3 h4⟩

/-- **C118**: when no job is Finishing, the nodes counted as idle are exactly the alive nodes of the class without a live job. -/
theorem idle_partial (db : Db) (classes : List (Nat × (Res → Bool))) (now : Int) (p : Res → Bool) (n : String) (hf : ∀ j, (j, "Finishing") ∉ db.jobs) :
    n ∈ idleOf (view db classes now) (nodesWith db p) ↔ IsAlive db p n ∧ ∀ st, Holds db n st → ¬ Live st := by
  rw [idle_iff]
  have hsub : ∀ st, st ∈ occupying → Live st := by decide
  have hrev : ∀ st, Live st → st = "Finishing" ∨ st ∈ occupying := fun st h => by
    have : ∀ st ∈ ["Waiting", "Hold", "toLaunch", "toError", "toAckReservation", "Launching", "Running", "Suspended", "Resuming", "Finishing"],
        st = "Finishing" ∨ st ∈ occupying := by decide
    exact this st h
  constructor
  · rintro ⟨h1, h2⟩
    refine ⟨h1, fun st h hl => ?_⟩
    rcases hrev st hl with e | e
    · subst e
      obtain ⟨_, _, _, _, _, _, j, _, hj⟩ := h
      exact hf j hj
    · exact h2 st h e
  · rintro ⟨h1, h2⟩
    exact ⟨h1, fun st h hl => h2 st h (hsub st hl)⟩

/-- **C118**: after the commands of a cycle on the database as it is, each class has at least its minimum of nodes without live job that are not halted (or all of them if they are fewer),
when no job is Finishing and the resources of a node of the class are in one state. -/
theorem keepalive_free_partial (ts : List (Nat × Nat)) (db : Db) (classes : List (Nat × (Res → Bool))) (now : Int) (s : St) (msg : Option (Cmd × List String))
    (hrem : (keys s.remind).Nodup) (s' : St) (cmds : List (Cmd × String)) (sus : List String) (h : cycle ts (view db classes now) s msg = some (s', cmds, sus))
    (hf : ∀ j, (j, "Finishing") ∉ db.jobs) (k : Nat) (p : Res → Bool) (hc : (k, p) ∈ classes)
    (h1 : ∀ r ∈ db.res, ∀ r' ∈ db.res, p r = true → p r' = true → r.net = r'.net → r.state = r'.state ∧ r.next = r'.next)
    (free : List String) (hn : free.Nodup) (hm : ∀ n, n ∈ free ↔ IsAlive db p n ∧ ∀ st, Holds db n st → ¬ Live st) :
    min k free.length ≤ (free.filter (fun n => decide ((Cmd.halt, n) ∉ cmds))).length := by
  refine keepalive_kept_partial ts _ s msg hrem s' cmds sus h (k, nodesWith db p) (List.mem_map.2 ⟨(k, p), hc, rfl⟩) ?_ free hn (fun n => ?_)
  · have hd : ∀ l : List (String × String × String), (∀ a ∈ l, ∀ b ∈ l, a.1 = b.1 → a = b) → ((distinct l).map (·.1)).Nodup := by
      intro l
      induction l with
      | nil => intro _; exact List.nodup_nil
      | cons a l ih =>
        intro hl
        unfold distinct
        rw [List.map_cons]
        refine List.nodup_cons.2 ⟨fun hmem => ?_, (ih (fun a ha b hb => hl a (List.mem_cons_of_mem _ ha) b (List.mem_cons_of_mem _ hb))).sublist (List.filter_sublist.map _)⟩
        obtain ⟨b, hb, e⟩ := List.mem_map.1 hmem
        obtain ⟨hb, hne⟩ := List.mem_filter.1 hb
        have := hl b (List.mem_cons_of_mem _ ((mem_distinct l b).1 hb)) a List.mem_cons_self e
        simp [this] at hne
    refine hd _ (fun a ha b hb e => ?_)
    obtain ⟨r, hr, rfl⟩ := List.mem_map.1 ha
    obtain ⟨r', hr', rfl⟩ := List.mem_map.1 hb
    obtain ⟨hr, hp⟩ := List.mem_filter.1 hr
    obtain ⟨hr', hp'⟩ := List.mem_filter.1 hr'
    have := h1 r hr r' hr' hp hp' e
    dsimp only at e ⊢
    rw [e, this.1, this.2]
  · rw [hm n, ← idle_partial db classes now p n hf]
    exact mem_idle _ _ n

/-- **C118**, refuted for all databases: a node is counted as idle while a job is in its epilogue on it, when its other jobs are over. -/
theorem finishing_violated (db : Db) (classes : List (Nat × (Res → Bool))) (now : Int) (p : Res → Bool) (n : String) (ha : IsAlive db p n)
    (_ : Holds db n "Finishing") (hall : ∀ st, Holds db n st → st = "Finishing" ∨ ¬ Live st) : n ∈ idleOf (view db classes now) (nodesWith db p) := by
  rw [idle_iff]
  refine ⟨ha, fun st h hm => ?_⟩
  have hsub : ∀ st, st ∈ occupying → Live st ∧ st ≠ "Finishing" := by decide
  rcases hall st h with e | e
  · exact (hsub st hm).2 e
  · exact e (hsub st hm).1

/-- Two nodes to choose from, one to keep: a job is in its epilogue on `n1`. -/
def ending : Db := ⟨[⟨1, "n1", "Alive", "UnChanged", 2000⟩, ⟨2, "n2", "Alive", "UnChanged", 2000⟩], [(10, 1)], [(10, 5)], [(5, "Finishing")]⟩

/-- **C118**, refuted: with the job in its epilogue on `n1`, the only free node `n2` is halted although one free node must be kept; it is not when the job is running. -/
theorem keepalive_violated :
    (cycle [(1, 900)] (view ending [(1, fun _ => true)] 1000) ⟨[], [], []⟩ (some (.halt, ["n2"]))).map (·.2.1) = some [(.halt, "n2")] ∧ Holds ending "n1" "Finishing" ∧
    (cycle [(1, 900)] (view { ending with jobs := [(5, "Running")] } [(1, fun _ => true)] 1000) ⟨[], [], []⟩ (some (.halt, ["n2"]))).map (·.2.1) = some [] :=
  ⟨by decide, ⟨⟨1, "n1", "Alive", "UnChanged", 2000⟩, by decide, rfl, .inl rfl, 10, by decide, 5, by decide, by decide⟩, by decide⟩

/-- **C118**: the nodes that may be woken up are those with an absent resource available after now. -/
theorem can_wake_exact (db : Db) (classes : List (Nat × (Res → Bool))) (now : Int) (n : String) :
    n ∈ (view db classes now).can ↔ ∃ r ∈ db.res, r.net = n ∧ r.state = "Absent" ∧ now < r.upto := by
  show n ∈ canWake db now ↔ _
  unfold canWake
  rw [mem_dedup, List.mem_map]
  constructor
  · rintro ⟨r, h, rfl⟩
    obtain ⟨hr, h⟩ := List.mem_filter.1 h
    simp at h
    exact ⟨r, hr, rfl, h.1, h.2⟩
  · rintro ⟨r, hr, rfl, h1, h2⟩
    exact ⟨r, List.mem_filter.2 ⟨hr, by simp [h1, h2]⟩, rfl⟩

/-! ## The events -/

theorem nodesOf_mem (c : Cmd) (cmds : List (Cmd × String)) (n : String) : n ∈ nodesOf c cmds ↔ (c, n) ∈ cmds := by
  unfold nodesOf
  rw [List.mem_map]
  constructor
  · rintro ⟨⟨c', n'⟩, h, rfl⟩
    obtain ⟨h, e⟩ := List.mem_filter.1 h
    have e' : c' = c := by simpa using e
    rw [← e']
    exact h
  · intro h
    exact ⟨(c, n), List.mem_filter.2 ⟨h, by simp⟩, rfl⟩

/-- **C118**: the commands are recorded: a node is among the hosts of a new event exactly when its command is launched, with the kind of this command and the date. -/
theorem recorded_exact (now : Int) (cmds : List (Cmd × String)) (c : Cmd) (n : String) :
    (c, n) ∈ cmds ↔ ∃ e ∈ recorded now cmds, e.kind = kindOf c ∧ n ∈ e.hosts ∧ e.date = now := by
  rw [← nodesOf_mem]
  unfold recorded
  constructor
  · intro h
    have hne : nodesOf c cmds ≠ [] := List.ne_nil_of_mem h
    cases c with
    | halt => exact ⟨_, List.mem_append.2 (.inl (by rw [if_pos hne]; exact List.mem_singleton.2 rfl)), rfl, (mem_dedup _ _).2 h, rfl⟩
    | wakeup => exact ⟨_, List.mem_append.2 (.inr (by rw [if_pos hne]; exact List.mem_singleton.2 rfl)), rfl, (mem_dedup _ _).2 h, rfl⟩
  · rintro ⟨e, he, hk, hn, _⟩
    rcases List.mem_append.1 he with he | he
    · split at he
      · rw [List.mem_singleton] at he
        subst he
        cases c with
        | halt => exact (mem_dedup _ _).1 hn
        | wakeup => exact absurd (show "HALT_NODE" = "WAKEUP_NODE" from hk) (by decide)
      · cases he
    · split at he
      · rw [List.mem_singleton] at he
        subst he
        cases c with
        | wakeup => exact (mem_dedup _ _).1 hn
        | halt => exact absurd (show "WAKEUP_NODE" = "HALT_NODE" from hk) (by decide)
      · cases he

theorem maxD_spec (l : List Int) (d : Int) : Energy.maxD l = some d ↔ d ∈ l ∧ ∀ x ∈ l, x ≤ d := by
  have hfold : ∀ (l : List Int) (a : Int), (l.foldl max a = a ∨ l.foldl max a ∈ l) ∧ a ≤ l.foldl max a ∧ ∀ x ∈ l, x ≤ l.foldl max a := by
    intro l
    induction l with
    | nil => intro a; exact ⟨.inl rfl, Int.le_refl _, fun x hx => absurd hx (by simp)⟩
    | cons b l ih =>
      intro a
      rw [List.foldl_cons]
      obtain ⟨h1, h2, h3⟩ := ih (max a b)
      refine ⟨?_, by omega, fun x hx => ?_⟩
      · rcases h1 with h | h
        · by_cases hab : a ≤ b
          · right
            rw [h, Int.max_eq_right hab]
            exact List.mem_cons_self
          · left
            rw [h, Int.max_eq_left (by omega)]
        · exact .inr (List.mem_cons_of_mem _ h)
      · rcases List.mem_cons.1 hx with e | hx
        · rw [e]; omega
        · exact h3 x hx
  cases l with
  | nil => simp [Energy.maxD]
  | cons a l =>
    obtain ⟨h1, h2, h3⟩ := hfold l a
    unfold Energy.maxD
    constructor
    · intro h
      cases h
      refine ⟨?_, fun x hx => ?_⟩
      · rcases h1 with h | h
        · rw [h]; exact List.mem_cons_self
        · exact List.mem_cons_of_mem _ h
      · rcases List.mem_cons.1 hx with e | hx
        · rw [e]; exact h2
        · exact h3 x hx
    · rintro ⟨hd, hm⟩
      refine congrArg some (Int.le_antisymm ?_ ?_)
      · rcases h1 with h | h
        · rw [h]; exact hm a List.mem_cons_self
        · exact hm _ (List.mem_cons_of_mem _ h)
      · rcases List.mem_cons.1 hd with e | hd
        · rw [e]; exact h2
        · exact h3 d hd

theorem mem_wakes (evs : List Ev) (n : String) (d : Int) : d ∈ ((wakesOf evs).filter (fun e => e.1 = n)).map (·.2) ↔ ∃ e ∈ evs, e.kind = "WAKEUP_NODE" ∧ n ∈ e.hosts ∧ e.date = d := by
  unfold wakesOf
  rw [List.mem_map]
  constructor
  · rintro ⟨⟨h, d'⟩, hm, rfl⟩
    obtain ⟨hm, hn⟩ := List.mem_filter.1 hm
    obtain ⟨e, he, hx⟩ := List.mem_flatMap.1 hm
    obtain ⟨he, hk⟩ := List.mem_filter.1 he
    obtain ⟨h', hh, e'⟩ := List.mem_map.1 hx
    have hn' : h = n := by simpa using hn
    cases e'
    subst hn'
    exact ⟨e, he, by simpa using hk, hh, rfl⟩
  · rintro ⟨e, he, hk, hh, rfl⟩
    refine ⟨(n, e.date), List.mem_filter.2 ⟨List.mem_flatMap.2 ⟨e, List.mem_filter.2 ⟨he, by simpa using hk⟩, List.mem_map.2 ⟨n, hh, rfl⟩⟩, by simp⟩, rfl⟩

/-- The date the meta-scheduler reads is that of the last event WAKEUP_NODE about the node. -/
theorem last_wake_iff (evs : List Ev) (t : Energy.Tables) (ht : t.wakes = wakesOf evs) (n : String) (d : Int) :
    Energy.lastWake t n = some d ↔ LastDate "WAKEUP_NODE" evs n d := by
  unfold Energy.lastWake LastDate
  rw [ht, maxD_spec, mem_wakes]
  constructor
  · rintro ⟨h1, h2⟩
    exact ⟨h1, fun e he hk hh => h2 _ ((mem_wakes evs n _).2 ⟨e, he, hk, hh, rfl⟩)⟩
  · rintro ⟨h1, h2⟩
    refine ⟨h1, fun x hx => ?_⟩
    obtain ⟨e, he, hk, hh, rfl⟩ := (mem_wakes evs n x).1 hx
    exact h2 e he hk hh

/-- **C118**: after the launching of commands at `now`, the last wake-up of a node, as the meta-scheduler reads it, is `now` if a wake-up was launched for it, and what it was otherwise,
in particular when it is halted. -/
theorem wake_date (evs : List Ev) (now : Int) (hpast : ∀ e ∈ evs, e.date ≤ now) (cmds : List (Cmd × String)) (t t' : Energy.Tables) (ht : t.wakes = wakesOf evs)
    (ht' : t'.wakes = wakesOf (evs ++ recorded now cmds)) (n : String) :
    ((Cmd.wakeup, n) ∈ cmds → Energy.lastWake t' n = some now) ∧
    ((Cmd.wakeup, n) ∉ cmds → ∀ d, Energy.lastWake t' n = some d ↔ Energy.lastWake t n = some d) := by
  have hdate : ∀ e ∈ recorded now cmds, e.date = now := by
    intro e he
    unfold recorded at he
    rcases List.mem_append.1 he with he | he
    · split at he
      · rw [List.mem_singleton] at he; rw [he]; rfl
      · cases he
    · split at he
      · rw [List.mem_singleton] at he; rw [he]; rfl
      · cases he
  constructor
  · intro h
    rw [last_wake_iff _ t' ht']
    obtain ⟨e, he, hk, hn, hd⟩ := (recorded_exact now cmds .wakeup n).1 h
    refine ⟨⟨e, List.mem_append.2 (.inr he), hk, hn, hd⟩, fun e' he' _ _ => ?_⟩
    rcases List.mem_append.1 he' with he' | he'
    · exact hpast e' he'
    · rw [hdate e' he']; exact Int.le_refl _
  · intro h d
    rw [last_wake_iff _ t' ht', last_wake_iff _ t ht]
    have hno : ∀ e ∈ recorded now cmds, e.kind = "WAKEUP_NODE" → n ∉ e.hosts := fun e he hk hn =>
      h ((recorded_exact now cmds .wakeup n).2 ⟨e, he, hk, hn, hdate e he⟩)
    unfold LastDate
    constructor
    · rintro ⟨⟨e, he, hk, hn, hd⟩, h2⟩
      rcases List.mem_append.1 he with he | he
      · exact ⟨⟨e, he, hk, hn, hd⟩, fun e' he' => h2 e' (List.mem_append.2 (.inl he'))⟩
      · exact absurd hn (hno e he hk)
    · rintro ⟨⟨e, he, hk, hn, hd⟩, h2⟩
      refine ⟨⟨e, List.mem_append.2 (.inl he), hk, hn, hd⟩, fun e' he' hk' hn' => ?_⟩
      rcases List.mem_append.1 he' with he' | he'
      · exact h2 e' he' hk' hn'
      · exact absurd hn' (hno e' he' hk')

/-- **C118**, refuted for all lists of commands that end by a wake-up: the event about the nodes to halt names the node that is woken up (and so on for the other kind). -/
theorem description_violated (now : Int) (cmds : List (Cmd × String)) (c : Cmd) (w : String) (hw : w.length ≤ 200) (h : ∃ x, x ∈ nodesOf .halt (cmds ++ [(c, w)])) :
    ∃ e ∈ recorded now (cmds ++ [(c, w)]), e.kind = "HALT_NODE" ∧ e.description = txt "Node " ++ w.toList ++ txt " halt request" ∧
      (c = .wakeup → (Cmd.halt, w) ∉ cmds → w ∉ e.hosts) := by
  obtain ⟨x, hx⟩ := h
  have hne : nodesOf .halt (cmds ++ [(c, w)]) ≠ [] := List.ne_nil_of_mem hx
  have hlast : lastNode (cmds ++ [(c, w)]) = w := by
    unfold lastNode
    rw [List.getLast?_append]
    rfl
  refine ⟨_, List.mem_append.2 (.inl (by rw [if_pos hne]; exact List.mem_singleton.2 rfl)), rfl, ?_, fun hc hh hmem => ?_⟩
  · unfold newEvent
    rw [hlast]
    dsimp only
    refine List.take_of_length_le ?_
    have h1 : (txt "Node ").length = 5 := by decide
    have h2 : (txt " halt request").length = 13 := by decide
    rw [List.length_append, List.length_append, h1, h2]
    have : w.toList.length = w.length := String.length_toList
    omega
  · have := (nodesOf_mem .halt _ w).1 ((mem_dedup _ _).1 hmem)
    rcases List.mem_append.1 this with h | h
    · exact hh h
    · rw [List.mem_singleton, hc] at h
      cases h

/-! ## The commands -/

theorem text_commands (node prog : List Char) (hn : Connect.SafeText node) (hp : Connect.SafeWord prog) :
    ShellQuotes.commands (txt "echo \"" ++ node ++ txt "\" | " ++ prog) = some [(.newline, [.word (txt "echo"), .word node]), (.pipe, [.word prog])] := by
  obtain ⟨hpn, hps⟩ := hp
  cases prog with
  | nil => exact absurd rfl hpn
  | cons c prog =>
    have hc := hps c List.mem_cons_self
    have hrest : Connect.SafeText prog := fun d hd => hps d (List.mem_cons_of_mem _ hd)
    have f1 : ShellQuotes.feed {} (txt "echo \"") = some ⟨.double, some [], [.word (txt "echo")]⟩ := by decide
    have f2 : ShellQuotes.feed ⟨.double, some [], [.word (txt "echo")]⟩ node = some ⟨.double, some node, [.word (txt "echo")]⟩ := by
      have := Connect.Reads.safe hn true [] [.word (txt "echo")]
      exact this
    have f3 : ShellQuotes.feed ⟨.double, some node, [.word (txt "echo")]⟩ (txt "\" | ") = some ⟨.plain, none, [.word (txt "echo"), .word node, .sep .pipe]⟩ := rfl
    have f4 : ShellQuotes.step ⟨.plain, none, [.word (txt "echo"), .word node, .sep .pipe]⟩ c = some ⟨.plain, some [c], [.word (txt "echo"), .word node, .sep .pipe]⟩ := by
      have n1 := Connect.safe_ne (d := ' ') hc (by decide)
      have n2 := Connect.safe_ne (d := '\t') hc (by decide)
      have n3 := Connect.safe_ne (d := '\n') hc (by decide)
      have n4 := Connect.safe_ne (d := ';') hc (by decide)
      have n5 := Connect.safe_ne (d := '&') hc (by decide)
      have n6 := Connect.safe_ne (d := '|') hc (by decide)
      have n7 := Connect.safe_ne (d := '>') hc (by decide)
      have n8 := Connect.safe_ne (d := '\'') hc (by decide)
      have n9 := Connect.safe_ne (d := '#') hc (by decide)
      have n10 := Connect.safe_ne (d := '(') hc (by decide)
      have n11 := Connect.safe_ne (d := '"') hc (by decide)
      have n12 := Connect.safe_ne (d := '\\') hc (by decide)
      have n13 := Connect.safe_ne (d := '`') hc (by decide)
      have n14 := Connect.safe_ne (d := '<') hc (by decide)
      have n15 := Connect.safe_ne (d := ')') hc (by decide)
      have n16 := Connect.safe_ne (d := '$') hc (by decide)
      have n17 := Connect.safe_ne (d := '*') hc (by decide)
      have n18 := Connect.safe_ne (d := '?') hc (by decide)
      have n19 := Connect.safe_ne (d := '[') hc (by decide)
      have n20 := Connect.safe_ne (d := '{') hc (by decide)
      have n21 := Connect.safe_ne (d := '~') hc (by decide)
      simp [ShellQuotes.step, ShellQuotes.plainStep, ShellQuotes.St.push, n1, n2, n3, n4, n5, n6, n7, n8, n9, n10, n11, n12, n13, n14, n15, n16, n17, n18, n19, n20, n21]
    have f5 : ShellQuotes.feed ⟨.plain, some [c], [.word (txt "echo"), .word node, .sep .pipe]⟩ prog = some ⟨.plain, some (c :: prog), [.word (txt "echo"), .word node, .sep .pipe]⟩ := by
      have := Connect.Reads.safe hrest false [c] [.word (txt "echo"), .word node, .sep .pipe]
      exact this
    have f : ShellQuotes.feed {} (txt "echo \"" ++ node ++ txt "\" | " ++ c :: prog) = some ⟨.plain, some (c :: prog), [.word (txt "echo"), .word node, .sep .pipe]⟩ := by
      refine Connect.q_then (Connect.q_then (Connect.q_then f1 f2) f3) ?_
      rw [ShellQuotes.feed, f4]
      exact f5
    unfold ShellQuotes.commands
    rw [f]
    rfl

/-- **C118**: each command launched makes the shell execute, once, the program of its kind, with the name of its node on a line of its standard input, for the nodes whose names have no
special character. -/
theorem commands_exact (sleep wake : List Char) (hs : Connect.SafeWord sleep) (hw : Connect.SafeWord wake) (cmds : List (Cmd × String))
    (hn : ∀ x ∈ cmds, Connect.SafeText x.2.toList ∧ x.2 ≠ "-n") :
    (started sleep wake cmds).length = cmds.length ∧
    ∀ (i : Nat) c n, cmds[i]? = some (c, n) → ∃ t, (started sleep wake cmds)[i]? = some t ∧
      Feeds t (if c = .halt then sleep else wake) (n.toList ++ ['\n']) := by
  refine ⟨List.length_map _, fun i c n h => ?_⟩
  have hx := hn (c, n) (List.mem_of_getElem? h)
  refine ⟨commandText sleep wake (c, n), by unfold started; rw [List.getElem?_map, h]; rfl, [n.toList], ?_, ?_⟩
  · cases c with
    | halt => exact text_commands n.toList sleep hx.1 hs
    | wakeup => exact text_commands n.toList wake hx.1 hw
  · have hne : n.toList ≠ ['-', 'n'] := fun e => hx.2 (by rw [← String.ofList_toList (s := n), e])
    unfold echo
    split
    · rename_i h'
      injection h' with h1 h2
      exact absurd h1 hne
    · simp

/-- **C118**, refuted for a node named `-n`: the program receives nothing. -/
theorem option_violated (sleep wake : List Char) (hs : Connect.SafeWord sleep) : Feeds (commandText sleep wake (.halt, "-n")) sleep [] :=
  ⟨[txt "-n"], text_commands (txt "-n") sleep (by decide) hs, by decide⟩

/-! ## Examples -/

/-- Three nodes: `a` runs a job, `b` is free, `c` is absent until 5000. -/
def mixed : Db :=
  ⟨[⟨1, "a", "Alive", "UnChanged", 2000⟩, ⟨2, "b", "Alive", "UnChanged", 2000⟩, ⟨3, "c", "Absent", "UnChanged", 5000⟩, ⟨4, "d", "Absent", "UnChanged", 0⟩], [(10, 1), (11, 2)],
    [(10, 5), (11, 6)], [(5, "Running"), (6, "Terminated")]⟩

example : occupied mixed = ["a"] ∧ idleOf (view mixed [] 1000) (nodesWith mixed (fun _ => true)) = ["b"] ∧ canWake mixed 1000 = ["c"] ∧
    (∀ j ∈ mixed.jobs, j.2 ≠ "Finishing") ∧ IsAlive mixed (fun _ => true) "b" ∧ ¬ Holds mixed "b" "Running" := by
  refine ⟨by decide, by decide, by decide, by decide, ⟨_, List.mem_cons_of_mem _ List.mem_cons_self, rfl, rfl, .inl rfl⟩, ?_⟩
  intro h
  have := (occupied_iff mixed "b").2 ⟨"Running", by decide, h⟩
  exact absurd this (by decide)

/-- Two nodes must stay: the message of the meta-scheduler is not followed; with one to keep and two free nodes, one is halted. -/
example : (cycle [(1, 900)] (view mixed [(1, fun _ => true)] 1000) ⟨[], [], []⟩ (some (.halt, ["b"]))).map (·.2.1) = some [] ∧
    (cycle [(1, 900)] (view { mixed with jobs := [] } [(1, fun _ => true)] 1000) ⟨[], [], []⟩ (some (.halt, ["a", "b"]))).map (·.2.1) = some [(.halt, "a")] := by decide

example : recorded 50 [(.halt, "a"), (.halt, "a"), (.wakeup, "c")] =
      [⟨"HALT_NODE", 50, txt "Node c halt request", ["a"]⟩, ⟨"WAKEUP_NODE", 50, txt "Node c wake-up request", ["c"]⟩] ∧
    started (txt "/etc/oar/sleep.sh") (txt "/etc/oar/wake.sh") [(.halt, "a"), (.wakeup, "c")] = [txt "echo \"a\" | /etc/oar/sleep.sh", txt "echo \"c\" | /etc/oar/wake.sh"] ∧
    Connect.SafeWord (txt "/etc/oar/sleep.sh") ∧ Connect.SafeText (txt "node-1.cluster.site") := by decide

/-- The dates of the wake-ups before and after the launching. -/
example : Energy.lastWake ⟨[], [], [], wakesOf [⟨"WAKEUP_NODE", 20, [], ["c", "d"]⟩, ⟨"WAKEUP_NODE", 10, [], ["c"]⟩], []⟩ "c" = some 20 ∧
    Energy.lastWake ⟨[], [], [], wakesOf ([⟨"WAKEUP_NODE", 20, [], ["c", "d"]⟩] ++ recorded 50 [(.halt, "d"), (.wakeup, "c")]), []⟩ "c" = some 50 ∧
    Energy.lastWake ⟨[], [], [], wakesOf ([⟨"WAKEUP_NODE", 20, [], ["c", "d"]⟩] ++ recorded 50 [(.halt, "d"), (.wakeup, "c")]), []⟩ "d" = some 20 := by decide

/-- **C118.** The alive nodes of a cycle, those with which the current events are read, are the nodes with an alive resource. -/
theorem view_alive (db : Db) (classes : List (Nat × (Res → Bool))) (now : Int) (n : String) :
    n ∈ (view db classes now).alive ↔ ∃ r ∈ db.res, r.net = n ∧ r.state = "Alive" := by
  show n ∈ (nodesWith db (fun r => r.state == "Alive")).map (·.1) ↔ _
  unfold nodesWith
  constructor
  · intro h
    obtain ⟨x, hx, rfl⟩ := List.mem_map.1 h
    obtain ⟨r, hr, rfl⟩ := List.mem_map.1 ((mem_distinct _ _).1 hx)
    obtain ⟨h1, h2⟩ := List.mem_filter.1 hr
    exact ⟨r, h1, rfl, by simpa using h2⟩
  · rintro ⟨r, hr, rfl, h2⟩
    exact List.mem_map.2 ⟨(r.net, r.state, r.next), (mem_distinct _ _).2 (List.mem_map.2 ⟨r, List.mem_filter.2 ⟨hr, by simpa using h2⟩, rfl⟩), rfl⟩

/-- **C118.** An event keeps the first 255 characters of its description, the whole of it when it is that short, its kind and its date, and each node once. -/
theorem event_fields (kind : String) (date : Int) (d : List Char) (hosts : List String) :
    (newEvent kind date d hosts).kind = kind ∧ (newEvent kind date d hosts).date = date ∧
    (newEvent kind date d hosts).description.length = min 255 d.length ∧ (∃ rest, d = (newEvent kind date d hosts).description ++ rest) ∧
    (∀ n, n ∈ (newEvent kind date d hosts).hosts ↔ n ∈ hosts) :=
  ⟨rfl, rfl, by show (d.take 255).length = _; rw [List.length_take], ⟨d.drop 255, (List.take_append_drop 255 d).symm⟩, fun n => mem_dedup hosts n⟩

end Oar.GretaAsk
