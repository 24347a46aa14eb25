import Verif.AdmissionText

/-!
# C73: the limit on the reservations; C38 with the default rules
-/

namespace Oar.Admission

open Oar.Submission Oar.Tools

/-- The rows of the table of the jobs: user, reservation, state. -/
abbrev Rows := List (List Char × String × String)

/-- The reservations of a user that are not started. -/
def waiting (u : List Char) (r : Rows) : Nat :=
  r.countP (fun j => j.1 = u && j.2.1 ≠ "None" && (j.2.2 = "Waiting" || j.2.2 = "Hold"))

/-- Those among them that the meta scheduler has not examined. -/
def waitingNew (u : List Char) (r : Rows) : Nat :=
  r.countP (fun j => j.1 = u && j.2.1 = "toSchedule" && (j.2.2 = "Waiting" || j.2.2 = "Hold"))

/-- The histories of the table, where `file` is the file of the users without limit: submissions of single reservations accepted by the rules,
submissions of other jobs, validation of a reservation by the meta scheduler (oar/modules/meta_scheduler.py sets `Scheduled`), changes of state; a job
never comes back to Waiting or Hold. Each submission is atomic. -/
inductive Hist (file : Option (List (List Char))) : Rows → Prop
  | start : Hist file []
  | reserve (rows : Rows) (c : Ctx) (p p' : Params) : Hist file rows → c.jobs = rows → c.unlimited = file → rules c p = some p' → p.resv ≠ 0 →
      Hist file (rows ++ [(c.user, "toSchedule", if p.hold then "Hold" else "Waiting")])
  | other (rows : Rows) (u : List Char) (st : String) : Hist file rows → Hist file (rows ++ [(u, "None", st)])
  | validate (a b : Rows) (u : List Char) (st : String) : Hist file (a ++ (u, "toSchedule", st) :: b) → Hist file (a ++ (u, "Scheduled", st) :: b)
  | state (a b : Rows) (u : List Char) (r st st' : String) : Hist file (a ++ (u, r, st) :: b) → (st' = "Waiting" ∨ st' = "Hold" → st = "Waiting" ∨ st = "Hold") →
      Hist file (a ++ (u, r, st') :: b)

/-- **C73 (partial).** A user who is not in the file never has more than two reservations waiting for the decision of the meta
scheduler. Missing: the reservations already validated, which are also waiting, are not counted (see `resv_limit_violated`). -/
theorem resv_limit_partial (file : Option (List (List Char))) (u : List Char) (hu : ∀ lines, file = some lines → ∀ l ∈ lines, ∀ a b, l ≠ a ++ u ++ b)
    (rows : Rows) (h : Hist file rows) : waitingNew u rows ≤ 2 ∧ ∀ r ∈ rows, r.2.1 = "None" ∨ r.2.1 = "toSchedule" ∨ r.2.1 = "Scheduled" := by
  induction h with
  | start => exact ⟨by simp [waitingNew], by simp⟩
  | reserve rows c p p' _ hj hf hr hp ih =>
    refine ⟨?_, ?_⟩
    · unfold waitingNew at ih ⊢
      rw [List.countP_append]
      by_cases hc : c.user = u
      · have ha := ((accepted_iff c p).1 ⟨p', hr⟩).resv hp
        have hn : ¬ Unlimited c := by
          rintro ⟨lines, e, l, hl, a, b, hab⟩
          rw [hc] at hab
          exact hu lines (hf.symm.trans e) l hl a b hab
        have h2 : counted c < 2 := ha.2.resolve_left hn
        have h3 : rows.countP (fun j => j.1 = u && j.2.1 = "toSchedule" && (j.2.2 = "Waiting" || j.2.2 = "Hold")) ≤ counted c := by
          unfold counted
          rw [hj, hc]
          apply List.countP_mono_left
          intro j _ hh
          simp only [Bool.and_eq_true, decide_eq_true_eq] at hh
          simp [hh.1.1, hh.1.2]
          simpa using hh.2
        have h4 : ∀ x : List Char × String × String, List.countP (fun j => j.1 = u && j.2.1 = "toSchedule" && (j.2.2 = "Waiting" || j.2.2 = "Hold")) [x] ≤ 1 :=
          fun x => List.countP_le_length
        have := h4 (c.user, "toSchedule", if p.hold then "Hold" else "Waiting")
        omega
      · have : List.countP (fun j : List Char × String × String => j.1 = u && j.2.1 = "toSchedule" && (j.2.2 = "Waiting" || j.2.2 = "Hold"))
            [(c.user, "toSchedule", if p.hold then "Hold" else "Waiting")] = 0 := by
          rw [List.countP_eq_zero]
          intro x hx
          rw [List.mem_singleton.1 hx]
          simp [hc]
        rw [this]
        exact ih.1
    · intro r hr
      rcases List.mem_append.1 hr with h | h
      · exact ih.2 r h
      · rw [List.mem_singleton.1 h]; exact Or.inr (Or.inl rfl)
  | other rows v st _ ih =>
    refine ⟨?_, ?_⟩
    · unfold waitingNew at ih ⊢
      rw [List.countP_append]
      have : List.countP (fun j : List Char × String × String => j.1 = u && j.2.1 = "toSchedule" && (j.2.2 = "Waiting" || j.2.2 = "Hold")) [(v, "None", st)] = 0 := by
        rw [List.countP_eq_zero]
        intro x hx
        rw [List.mem_singleton.1 hx]
        simp
      rw [this]
      exact ih.1
    · intro r hr
      rcases List.mem_append.1 hr with h | h
      · exact ih.2 r h
      · rw [List.mem_singleton.1 h]; exact Or.inl rfl
  | validate a b v st _ ih =>
    refine ⟨?_, ?_⟩
    · unfold waitingNew at ih ⊢
      rw [List.countP_append, List.countP_cons] at ih ⊢
      have hz : ((decide (v = u) && decide ("Scheduled" = "toSchedule") && (decide (st = "Waiting") || decide (st = "Hold"))) = true) ↔ False := by simp
      rw [if_neg (by simp)]
      omega
    · intro r hr
      rcases List.mem_append.1 hr with h | h
      · exact ih.2 r (List.mem_append_left _ h)
      · rcases List.mem_cons.1 h with h | h
        · rw [h]; exact Or.inr (Or.inr rfl)
        · exact ih.2 r (List.mem_append_right _ (List.mem_cons_of_mem _ h))
  | state a b v rv st st' _ hst ih =>
    refine ⟨?_, ?_⟩
    · unfold waitingNew at ih ⊢
      rw [List.countP_append, List.countP_cons] at ih ⊢
      have := ih.1
      by_cases hx : (decide (v = u) && decide (rv = "toSchedule") && (decide (st' = "Waiting") || decide (st' = "Hold"))) = true
      · have hx' : (decide (v = u) && decide (rv = "toSchedule") && (decide (st = "Waiting") || decide (st = "Hold"))) = true := by
          simp only [Bool.and_eq_true, Bool.or_eq_true, decide_eq_true_eq] at hx ⊢
          exact ⟨hx.1, hst hx.2⟩
        rw [if_pos hx'] at this
        rw [if_pos hx]
        exact this
      · rw [if_neg hx]
        omega
    · intro r hr
      rcases List.mem_append.1 hr with h | h
      · exact ih.2 r (List.mem_append_left _ h)
      · rcases List.mem_cons.1 h with h | h
        · rw [h]
          exact ih.2 (v, rv, st) (List.mem_append_right _ (List.mem_cons_self))
        · exact ih.2 r (List.mem_append_right _ (List.mem_cons_of_mem _ h))

/-- A reservation. -/
def exResv : Params := { exParams with types := [], resv := 1000, request := [⟨[⟨[], [(txt "host", .num (txt "1"))]⟩], some 60⟩] }

/-- Not vacuous: the third reservation is refused, the second one is accepted. -/
example : (rules { exCtx with jobs := [(txt "alice", "toSchedule", "Waiting"), (txt "bob", "toSchedule", "Waiting")] } exResv).isSome = true ∧
    rules { exCtx with jobs := [(txt "alice", "toSchedule", "Waiting"), (txt "alice", "toSchedule", "Hold")] } exResv = none := by
  decide +kernel

/-- C73 (violated). One would expect that a user who is not in the file never has more than two waiting reservations. The rule looks
for the value `Schedule`, which does not exist: the reservations validated by the meta scheduler (`Scheduled`) are not counted, and a
user may have any number of them. -/
theorem resv_limit_violated (n : Nat) : ∃ rows, Hist none rows ∧ waiting (txt "alice") rows = n ∧
    rows = List.replicate n (txt "alice", "Scheduled", "Waiting") := by
  induction n with
  | zero => exact ⟨[], .start, rfl, rfl⟩
  | succ n ih =>
    obtain ⟨rows, h, hn, hr⟩ := ih
    have hacc : ∃ p', rules { exCtx with jobs := rows } exResv = some p' := by
      rw [accepted_iff]
      refine ⟨(by decide : exCtx.user ≠ txt "root" ∧ exCtx.user ≠ txt "oar"), fun h => absurd h (by decide), ?_, by rintro (h | h) <;> exact absurd h (by decide),
        fun h => absurd (show txt "deploy" ∈ ([] : List (List Char)) from h) (by simp), fun _ => ⟨rfl, Or.inr ?_⟩, by simp [exResv]⟩
      · intro l hl
        rw [← mem_levelsOf]
        revert l
        decide
      · have : counted { exCtx with jobs := rows } = 0 := by
          unfold counted
          rw [List.countP_eq_zero]
          intro j hj
          have hj : j ∈ rows := hj
          rw [hr] at hj
          rw [(List.mem_replicate.1 hj).2]
          simp
        omega
    obtain ⟨p', hp'⟩ := hacc
    have h1 := Hist.reserve rows { exCtx with jobs := rows } exResv p' h rfl rfl hp' (by decide)
    have h2 := Hist.validate rows [] (txt "alice") "Waiting" h1
    have e : rows ++ [(txt "alice", "Scheduled", "Waiting")] = List.replicate (n + 1) (txt "alice", "Scheduled", "Waiting") := by
      rw [hr, List.replicate_succ']
    refine ⟨_, h2, ?_, e⟩
    unfold waiting at hn ⊢
    rw [List.countP_append, hn]
    rfl

/-- C73 (violated). One would expect the file to name the users without limit: a user whose name is a part of a name in the file is not
limited either. -/
theorem part_of_name_violated : ∃ c p, c.user = txt "al" ∧ c.unlimited = some [txt "alice\n"] ∧ p.resv ≠ 0 ∧ counted c = 5 ∧ (rules c p).isSome = true :=
  ⟨{ exCtx with user := txt "al", unlimited := some [txt "alice\n"], jobs := List.replicate 5 (txt "al", "toSchedule", "Waiting") }, exResv,
    rfl, rfl, by decide, by decide, by decide +kernel⟩

/-! ## Exemption from the quotas -/

open Oar.JobTypes in
/-- C38, with the default rules. When the quotas are enabled, a job accepted in another queue than `admin` is never exempt from the
quotas, whatever the types given by the user. -/
theorem not_exempt_default (queues : List String) (c : Ctx) (dw : Int) (est : List Char → Int) (date : Int)
    (db db' : DB) (hv : Valid db) (p : Params) (ids : List Nat)
    (h : submit true queues (rules c) dw est date db p = some (0, ids, db')) (r : SJob) (hr : r ∈ db'.jobs) (hid : r.id ∈ ids) (hq : r.queue ≠ "admin")
    (i : Info) (hi : jobTypes (typesOf db' r.id) Info.empty = some i) : i.noQuotas = false := by
  have hadm : ∃ p2, rules c { p with types := p.types.erase (txt "no_quotas") } = some p2 ∧ p2.queue ∈ queues := by
    unfold submit at h
    dsimp only at h
    rw [if_pos rfl] at h
    cases hx : rules c { p with types := p.types.erase (txt "no_quotas") } with
    | none => rw [hx] at h; exact absurd (Prod.mk.inj (Option.some.inj h)).1 (by decide)
    | some p2 =>
      rw [hx] at h
      dsimp only at h
      by_cases hq : p2.queue ∉ queues
      · rw [if_pos hq] at h; exact absurd (Prod.mk.inj (Option.some.inj h)).1 (by decide)
      · exact ⟨p2, rfl, Decidable.of_not_not hq⟩
  obtain ⟨p2, h2, hq2⟩ := hadm
  have ha : Admitted true queues (rules c) p (if p2.queue = "admin" then { p2 with types := p2.types ++ [txt "no_quotas"] } else p2) :=
    ⟨p2, h2, hq2, by simp⟩
  have hf := submit_feasible true queues (rules c) dw est date db db' p _ ha ids h (List.ne_nil_of_mem hid)
  obtain ⟨db1, rows, e, _, _, hjobs, _, _, _, hrow, _, rec, _⟩ := submit_creates true queues (rules c) dw est date db hv p _ ha hf
  rw [h] at e
  have e := Option.some.inj e
  simp only [Prod.mk.injEq] at e
  obtain ⟨_, e2, e3⟩ := e
  subst e3
  rw [e2, List.mem_range'_1] at hid
  have hr' : r ∈ rows := by
    rw [hjobs] at hr
    rcases List.mem_append.1 hr with h | h
    · have := (hv.jobs r h).1; omega
    · exact h
  have hq3 : p2.queue ≠ "admin" := by
    intro hh
    have := (hrow r hr').2.1
    rw [if_pos hh] at this
    exact hq (this.trans hh)
  have ht := (rec (r.id - db.nj) (by omega)).2.1
  rw [if_neg hq3, show db.nj + (r.id - db.nj) = r.id by omega] at ht
  rw [← Bool.not_eq_true, jobTypes_noQuotas _ _ _ hi, ht]
  rintro (h | ⟨t, htm, hs⟩)
  · exact absurd h (by decide)
  · have hok : TypeOk c.word t := by
      rw [(accepted_job c _ _ h2).types] at htm
      rcases List.mem_append.1 htm with h | h
      · exact ((accepted_iff c _).1 ⟨p2, h2⟩).types t h
      · split at h
        · rw [List.mem_singleton.1 h]; exact Or.inl .besteffort
        · exact absurd h (by simp)
    exact absurd hs (head_ne c.word t hok)
where
  head_ne (w : Char → Bool) (t : List Char) (h : TypeOk w t) : (split '=' t).headD [] ≠ txt "no_quotas" := by
    have hc : ∀ t : List Char, t.head? ≠ some 'n' → (split '=' t).headD [] ≠ txt "no_quotas" := by
      intro t ht
      cases t with
      | nil => decide
      | cons a t =>
        have ha : a ≠ 'n' := fun hh => ht (by rw [hh]; rfl)
        intro hh
        have : ((split '=' (a :: t)).headD []).head? = some 'n' := by rw [hh]; rfl
        rw [split] at this
        split at this
        · simp at this
        · cases hx : split '=' t with
          | nil => rw [hx] at this; simp at this; exact ha this
          | cons y ys => rw [hx] at this; simp at this; exact ha this
    apply hc
    have hk : ∀ t, KnownType w t → t.head? ≠ some 'n' ∧ t ≠ [] := by
      intro t ht
      cases ht with
      | timesharing a b hab => exact ⟨by simp [txt], by simp [txt]⟩
      | name pre n hp _ _ =>
        simp only [List.mem_cons, List.not_mem_nil, or_false] at hp
        rcases hp with rfl | rfl | rfl | rfl <;> exact ⟨by simp [txt], by simp [txt]⟩
      | _ => exact ⟨by decide, by decide⟩
    rcases h with h | ⟨t', rfl, h⟩
    · exact (hk t h).1
    · have := hk t' h
      cases t' with
      | nil => exact absurd rfl this.2
      | cons a t' => exact this.1

/-- Not vacuous: a best-effort job to which the user gave the type `no_quotas`. -/
example : (submit true ["besteffort"] (rules exCtx) 3600 (fun _ => 0) 5 exDB { exBe with types := [txt "no_quotas", txt "besteffort"] }).map
    (fun x => (x.1, x.2.1, x.2.2.jobs.map (·.queue), typesOf x.2.2 10)) = some (0, [10], ["default", "besteffort"], [txt "besteffort"]) := by
  decide +kernel

end Oar.Admission
