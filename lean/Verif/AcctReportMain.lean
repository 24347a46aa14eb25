import Verif.AcctReportProps

/-!
# C112 : the period of the report, cases that meet the hypotheses, and what does not hold
-/

namespace Oar.Report

open Oar.Accounting Oar.Tools

/-! ## The text of the period -/

/-- `D` is a day as in the help of the option: four digits, one or two, one or two, separated by dashes. -/
def IsDay (x : List Char × List Char × List Char) : Prop :=
  (∀ c ∈ x.1, c.isDigit = true) ∧ x.1.length = 4 ∧ (∀ c ∈ x.2.1, c.isDigit = true) ∧ (x.2.1.length = 1 ∨ x.2.1.length = 2) ∧
  (∀ c ∈ x.2.2, c.isDigit = true) ∧ (x.2.2.length = 1 ∨ x.2.2.length = 2)

/-- The text of a day. -/
def dayText (x : List Char × List Char × List Char) : List Char := x.1 ++ '-' :: x.2.1 ++ '-' :: x.2.2

theorem digitsN_some : ∀ (n : Nat) (s x r : List Char), digitsN n s = some (x, r) ↔
    s = x ++ r ∧ x.length = n ∧ ∀ c ∈ x, c.isDigit = true
  | 0, s, x, r => by
    unfold digitsN
    constructor
    · intro h
      cases h
      simp
    · rintro ⟨h1, h2, _⟩
      obtain rfl := List.length_eq_zero_iff.1 h2
      rw [h1]
      rfl
  | n + 1, [], x, r => by
    unfold digitsN
    constructor
    · intro h; simp at h
    · rintro ⟨h1, h2, _⟩
      have := congrArg List.length h1
      simp at this
      omega
  | n + 1, c :: s, x, r => by
    unfold digitsN
    by_cases hc : c.isDigit = true
    · rw [if_pos hc, Option.map_eq_some_iff]
      constructor
      · rintro ⟨⟨y, r'⟩, h1, h2⟩
        obtain ⟨h3, h4, h5⟩ := (digitsN_some n s y r').1 h1
        cases h2
        refine ⟨by rw [h3]; rfl, by simp [h4], ?_⟩
        intro d hd
        rcases List.mem_cons.1 hd with rfl | hd
        · exact hc
        · exact h5 d hd
      · rintro ⟨h1, h2, h3⟩
        cases x with
        | nil => simp at h2
        | cons d x =>
          simp only [List.cons_append, List.cons.injEq] at h1
          obtain ⟨rfl, h1⟩ := h1
          refine ⟨(x, r), (digitsN_some n s x r).2 ⟨h1, by simpa using h2, fun e he => h3 e (by simp [he])⟩, rfl⟩
    · rw [if_neg hc]
      constructor
      · intro h; simp at h
      · rintro ⟨h1, h2, h3⟩
        cases x with
        | nil => simp at h2
        | cons d x =>
          simp only [List.cons_append, List.cons.injEq] at h1
          exact absurd (h1.1 ▸ h3 d (by simp)) hc

theorem digits12_sound {s x r : List Char} (h : digits12 s = some (x, r)) :
    s = x ++ r ∧ (x.length = 1 ∨ x.length = 2) ∧ (∀ c ∈ x, c.isDigit = true) ∧ (x.length = 1 → ∀ c ∈ r.head?, c.isDigit = false) := by
  match s, h with
  | [], h => simp [digits12] at h
  | [c], h =>
    unfold digits12 at h; dsimp only at h
    by_cases hc : c.isDigit = true
    · rw [if_pos hc] at h
      cases h
      simp [hc]
    · rw [if_neg hc] at h; simp at h
  | c :: c' :: s, h =>
    unfold digits12 at h; dsimp only at h
    by_cases hc : c.isDigit = true
    · rw [if_pos hc] at h
      by_cases hc' : c'.isDigit = true
      · rw [if_pos hc'] at h
        cases h
        simp [hc, hc']
      · rw [if_neg hc'] at h
        cases h
        simp [hc, hc']
    · rw [if_neg hc] at h; simp at h

theorem digits12_complete {x r : List Char} (hl : x.length = 1 ∨ x.length = 2) (hd : ∀ c ∈ x, c.isDigit = true)
    (hr : x.length = 1 → ∀ c ∈ r.head?, c.isDigit = false) : digits12 (x ++ r) = some (x, r) := by
  match x, hl with
  | [c], _ =>
    have hc := hd c (by simp)
    cases r with
    | nil => simp [digits12, hc]
    | cons d r =>
      have := hr rfl d (by simp)
      simp [digits12, hc, this]
  | [c, c'], _ =>
    have hc := hd c (by simp)
    have hc' := hd c' (by simp)
    simp [digits12, hc, hc']

theorem day_some (s : List Char) (x : List Char × List Char × List Char) (r : List Char) :
    day s = some (x, r) ↔ s = dayText x ++ r ∧ IsDay x ∧ (x.2.2.length = 1 → ∀ c ∈ r.head?, c.isDigit = false) := by
  obtain ⟨y, m, d⟩ := x
  unfold day dayText IsDay
  simp only [Option.bind_eq_bind, Option.bind_eq_some_iff, Option.pure_def, Option.some.injEq, Prod.exists, Prod.mk.injEq]
  have hlit : ∀ (c : Char) (a b : List Char), lit c a = some b ↔ a = c :: b := by
    intro c a b
    cases a with
    | nil => simp [lit]
    | cons e a =>
      unfold lit
      by_cases he : e = c
      · simp [he]
      · simp [he]
  constructor
  · rintro ⟨y', s1, h1, s2, h2, m', s3, h3, s4, h4, d', s5, h5, ⟨rfl, rfl, rfl⟩, rfl⟩
    rw [hlit] at h2 h4
    obtain ⟨a1, a2, a3⟩ := (digitsN_some 4 _ _ _).1 h1
    obtain ⟨b1, b2, b3, _⟩ := digits12_sound h3
    obtain ⟨c1, c2, c3, c4⟩ := digits12_sound h5
    refine ⟨by rw [a1, h2, b1, h4, c1]; simp, ⟨a3, a2, b3, b2, c3, c2⟩, c4⟩
  · rintro ⟨h1, ⟨a1, a2, a3, a4, a5, a6⟩, h3⟩
    refine ⟨y, _, (digitsN_some 4 s y ('-' :: m ++ '-' :: d ++ r)).2 ⟨by rw [h1]; simp, a2, a1⟩, m ++ '-' :: d ++ r,
      (hlit _ _ _).2 (by simp), m, '-' :: d ++ r, ?_, d ++ r, (hlit _ _ _).2 (by simp), d, r, digits12_complete a6 a5 h3, ⟨rfl, rfl, rfl⟩, rfl⟩
    have := digits12_complete (r := '-' :: d ++ r) a4 a3 (by intro _ c hc; simp at hc; subst hc; rfl)
    rw [← this]
    simp

theorem digit_not_space {c : Char} (h : c.isDigit = true) : c.isWhitespace = false := by
  rw [Char.isDigit, Bool.and_eq_true] at h
  simp only [decide_eq_true_eq] at h
  cases hw : c.isWhitespace with
  | false => rfl
  | true =>
    exfalso
    unfold Char.isWhitespace at hw
    simp only [Bool.or_eq_true, decide_eq_true_eq] at hw
    have h1 : 48 ≤ c.val.toNat := by have := UInt32.le_iff_toNat_le.1 h.1; simpa using this
    rcases hw with ((hw | hw) | hw) | hw <;> (rw [hw] at h1; revert h1; decide)

theorem spaces_append (w s : List Char) (hw : ∀ c ∈ w, c.isWhitespace = true) (hs : ∀ c ∈ s.head?, c.isWhitespace = false) :
    spaces (w ++ s) = s := by
  unfold spaces
  induction w with
  | nil =>
    cases s with
    | nil => rfl
    | cons c s => rw [List.nil_append, List.dropWhile_cons_of_neg]; have := hs c (by simp); simp [this]
  | cons c w ih =>
    rw [List.cons_append, List.dropWhile_cons_of_pos (hw c (by simp))]
    exact ih fun d hd => hw d (by simp [hd])

theorem day_head {x : List Char × List Char × List Char} (h : IsDay x) (r : List Char) :
    ∀ c ∈ (dayText x ++ r).head?, c.isWhitespace = false := by
  obtain ⟨y, m, d⟩ := x
  obtain ⟨h1, h2, _⟩ := h
  cases y with
  | nil => simp at h2
  | cons e y =>
    intro c hc
    simp [dayText] at hc
    subst hc
    exact digit_not_space (h1 _ (by simp))

/-- The two days are read from every text of the form announced, with blanks around the days. -/
theorem period_read (w1 w2 w3 r : List Char) (x y : List Char × List Char × List Char) (hx : IsDay x) (hy : IsDay y)
    (h1 : ∀ c ∈ w1, c.isWhitespace = true) (h2 : ∀ c ∈ w2, c.isWhitespace = true) (h3 : ∀ c ∈ w3, c.isWhitespace = true)
    (hr : ∀ c ∈ r.head?, c.isDigit = false) :
    period (w1 ++ dayText x ++ w2 ++ txt "," ++ w3 ++ dayText y ++ r) = some (x, y) := by
  have e1 : day (spaces (w1 ++ dayText x ++ w2 ++ txt "," ++ w3 ++ dayText y ++ r)) =
      some (x, w2 ++ txt "," ++ w3 ++ dayText y ++ r) := by
    have : w1 ++ dayText x ++ w2 ++ txt "," ++ w3 ++ dayText y ++ r = w1 ++ (dayText x ++ (w2 ++ txt "," ++ w3 ++ dayText y ++ r)) := by
      simp
    rw [this, spaces_append _ _ h1 (day_head hx _), day_some]
    refine ⟨rfl, hx, fun _ c hc => ?_⟩
    cases w2 with
    | nil => simp [txt] at hc; subst hc; rfl
    | cons d w2 =>
      simp at hc
      subst hc
      cases hd : d.isDigit with
      | false => rfl
      | true => have := digit_not_space hd; rw [h2 d (by simp)] at this; simp at this
  have e2 : lit ',' (spaces (w2 ++ txt "," ++ w3 ++ dayText y ++ r)) = some (w3 ++ dayText y ++ r) := by
    have : w2 ++ txt "," ++ w3 ++ dayText y ++ r = w2 ++ (',' :: (w3 ++ dayText y ++ r)) := by simp [txt]
    rw [this, spaces_append _ _ h2 (by intro c hc; simp at hc; subst hc; rfl)]
    simp [lit]
  have e3 : day (spaces (w3 ++ dayText y ++ r)) = some (y, r) := by
    rw [List.append_assoc, spaces_append _ _ h3 (day_head hy _), day_some]
    exact ⟨rfl, hy, fun _ => hr⟩
  unfold period
  rw [e1]
  dsimp only [Option.bind_eq_bind, Option.bind_some]
  rw [e2]
  dsimp only [Option.bind_some]
  rw [e3]
  rfl

/-- Only such texts are accepted — but for what comes after the second day, which is not looked at. -/
theorem period_sound (s : List Char) (x y : List Char × List Char × List Char) (h : period s = some (x, y)) :
    ∃ w1 w2 w3 r, (∀ c ∈ w1 ++ w2 ++ w3, c.isWhitespace = true) ∧ IsDay x ∧ IsDay y ∧
      s = w1 ++ dayText x ++ w2 ++ txt "," ++ w3 ++ dayText y ++ r := by
  have hsp : ∀ s : List Char, ∃ w, (∀ c ∈ w, c.isWhitespace = true) ∧ s = w ++ spaces s := by
    intro s
    refine ⟨s.takeWhile Char.isWhitespace, fun c hc => ?_, (List.takeWhile_append_dropWhile ..).symm⟩
    exact List.all_eq_true.1 (List.all_takeWhile (p := Char.isWhitespace) (l := s)) c hc
  unfold period at h
  simp only [Option.bind_eq_bind, Option.bind_eq_some_iff, Option.pure_def, Option.some.injEq, Prod.exists, Prod.mk.injEq] at h
  obtain ⟨x1, x2, x3, s1, h1, s2, h2, y1, y2, y3, s3, h3, rfl, rfl⟩ := h
  obtain ⟨w1, hw1, e1⟩ := hsp s
  obtain ⟨w2, hw2, e2⟩ := hsp s1
  obtain ⟨w3, hw3, e3⟩ := hsp s2
  obtain ⟨d1, d2, _⟩ := (day_some _ _ _).1 h1
  obtain ⟨d4, d5, _⟩ := (day_some _ _ _).1 h3
  have hl : spaces s1 = ',' :: s2 := by
    cases hc : spaces s1 with
    | nil => rw [hc] at h2; simp [lit] at h2
    | cons c q =>
      rw [hc] at h2
      unfold lit at h2; dsimp only at h2
      by_cases hcc : c = ','
      · rw [if_pos hcc] at h2; cases h2; rw [hcc]
      · rw [if_neg hcc] at h2; simp at h2
  refine ⟨w1, w2, w3, s3, fun c hc => ?_, d2, d5, ?_⟩
  · rcases List.mem_append.1 hc with hc | hc
    · rcases List.mem_append.1 hc with hc | hc
      · exact hw1 c hc
      · exact hw2 c hc
    · exact hw3 c hc
  · rw [e1, d1, e2, hl, e3, d4]
    simp [txt]

-- a text of the form announced, and one that is not
example : period (txt "2024-01-01, 2024-1-31") = some ((txt "2024", txt "01", txt "01"), (txt "2024", txt "1", txt "31")) := by decide
example : period (txt "2024-01-01 2024-01-31") = none := by decide
example : period (txt "01-01-2024, 31-01-2024") = none := by decide

/-- **C112, violated.** What follows the second day is not looked at: a date of three digits is cut, a third date ignored. -/
theorem period_violated :
    period (txt "2024-01-01, 2024-01-315") = some ((txt "2024", txt "01", txt "01"), (txt "2024", txt "01", txt "31")) ∧
    period (txt "2024-01-01, 2024-01-31 12:00:00") = some ((txt "2024", txt "01", txt "01"), (txt "2024", txt "01", txt "31")) ∧
    period (txt "2024-01-01, 2024-01-02, 2024-12-31") = some ((txt "2024", txt "01", txt "01"), (txt "2024", txt "01", txt "02")) :=
  ⟨by decide, by decide, by decide⟩

/-! ## Cases that meet the hypotheses -/

/-- A job of two days of a user `u`, on the first two days of 1970; 2 resources. -/
def jobA : AJob := ⟨1, "Terminated", 3600, 3600 + 86400, 172800, "u", "p", "q", 2, false⟩
/-- A job of `u` in another project. -/
def jobB : AJob := ⟨2, "Terminated", 90000, 90100, 3600, "u", "p2", "q", 4, false⟩
/-- A job of another user. -/
def jobC : AJob := ⟨3, "Error", 5000, 5010, 60, "v", "p", "q", 1, false⟩

/-- The table after one pass on the three jobs. -/
def tableABC : Table := (checkAccounting 86400 [] [jobA, jobB, jobC]).1

theorem history_ABC : History 86400 tableABC (checkAccounting 86400 [] [jobA, jobB, jobC]).2.1 ([jobA, jobB, jobC] ++ []) :=
  History.pass (History.start [jobA, jobB, jobC] (by decide))

instance (rows : List ARow) (l : List Group) : Decidable (Answer rows l) := by unfold Answer; infer_instance
instance (rows : List ARow) (l : List PGroup) : Decidable (PAnswer rows l) := by unfold PAnswer; infer_instance

-- the second day of `u`: 3600 s of `jobA` on 2 resources, 100 s of `jobB` on 4
example : Answer (rowsOf tableABC 86400 172800 (some "u")) [⟨"u", "USED", 7600, 86400, 172799⟩, ⟨"u", "ASKED", 187200, 86400, 172799⟩] := by
  decide +kernel
example : PAnswer (rowsOf tableABC 86400 172800 (some "u"))
    [⟨"u", "p", "ASKED", 172800⟩, ⟨"u", "p", "USED", 7200⟩, ⟨"u", "p2", "ASKED", 14400⟩, ⟨"u", "p2", "USED", 400⟩] := by decide +kernel
example : shownUser "u" [⟨"u", "USED", 7600, 86400, 172799⟩, ⟨"u", "ASKED", 187200, 86400, 172799⟩]
    [⟨"u", "p", "ASKED", 172800⟩, ⟨"u", "p", "USED", 7200⟩, ⟨"u", "p2", "ASKED", 14400⟩, ⟨"u", "p2", "USED", 400⟩] =
    some ⟨86400, 172799, 187200, 7600, [("p", 172800, 7200), ("p2", 14400, 400)]⟩ := by decide
example : usedBetween (ofUser "u" [jobA, jobB, jobC]) 86400 172800 = 7600 := by decide
example : lines [⟨"v", "USED", 10, 0, 86399⟩, ⟨"v", "ASKED", 60, 0, 86399⟩, ⟨"u", "USED", 165600, 0, 86399⟩, ⟨"u", "ASKED", 165600, 0, 86399⟩] =
    [("v", 0, 86399, 60, 10), ("u", 0, 86399, 165600, 165600)] := by decide
example : Answer (rowsOf tableABC 0 86400 none)
    [⟨"v", "USED", 10, 0, 86399⟩, ⟨"v", "ASKED", 60, 0, 86399⟩, ⟨"u", "USED", 165600, 0, 86399⟩, ⟨"u", "ASKED", 165600, 0, 86399⟩] := by
  decide +kernel

/-! ## What does not hold -/

/-- **C112, violated.** The days of the period are those of the clock of the machine, the windows those of UTC: at UTC+1 the second day
of 1970 goes from 82800 to 169200, and the report for this day counts the two windows it meets. What was used on the first day is shown
as used on the second one, and the reports of the first and of the second day add up to more than what was used. -/
theorem local_days_violated :
    ∃ (t : Table) (jobs log : List AJob) (l1 l2 : List Group) (p1 p2 : List PGroup) (s1 s2 : Shown),
      History 86400 t jobs log ∧
      Answer (rowsOf t (-3600) 82800 (some "u")) l1 ∧ PAnswer (rowsOf t (-3600) 82800 (some "u")) p1 ∧
      Answer (rowsOf t 82800 169200 (some "u")) l2 ∧ PAnswer (rowsOf t 82800 169200 (some "u")) p2 ∧
      shownUser "u" l1 p1 = some s1 ∧ shownUser "u" l2 p2 = some s2 ∧
      usedBetween (ofUser "u" log) 82800 169200 = 0 ∧ usedBetween (ofUser "u" log) (-3600) 169200 = 200 ∧
      s1.used = 200 ∧ s2.used = 200 := by
  refine ⟨(checkAccounting 86400 [] [⟨1, "Terminated", 1000, 1100, 100, "u", "p", "q", 2, false⟩]).1, _, _,
    [⟨"u", "USED", 200, 0, 86399⟩, ⟨"u", "ASKED", 200, 0, 86399⟩], [⟨"u", "USED", 200, 0, 86399⟩, ⟨"u", "ASKED", 200, 0, 86399⟩],
    [⟨"u", "p", "ASKED", 200⟩, ⟨"u", "p", "USED", 200⟩], [⟨"u", "p", "ASKED", 200⟩, ⟨"u", "p", "USED", 200⟩],
    ⟨0, 86399, 200, 200, [("p", 200, 200)]⟩, ⟨0, 86399, 200, 200, [("p", 200, 200)]⟩,
    History.pass (History.start [⟨1, "Terminated", 1000, 1100, 100, "u", "p", "q", 2, false⟩] (by decide)), ?_⟩
  decide +kernel

/-- **C112, violated.** With `--sql`, the figures of the user are restricted to the rows that satisfy the condition, those of the projects are
not: they do not add up, and a project that was excluded is shown. -/
theorem sql_violated :
    ∃ (prop : ARow → Bool) (l : List Group) (p : List PGroup) (s : Shown),
      Answer (tableABC.filter (selects 86400 172800 (some "u") prop)) l ∧ PAnswer (rowsOf tableABC 86400 172800 (some "u")) p ∧
      (∀ r, prop r = true ↔ r.1.project = "p2") ∧
      shownUser "u" l p = some s ∧ s.used = 400 ∧ s.projects = [("p", 172800, 7200), ("p2", 14400, 400)] := by
  refine ⟨fun r => r.1.project == "p2", [⟨"u", "USED", 400, 86400, 172799⟩, ⟨"u", "ASKED", 14400, 86400, 172799⟩],
    [⟨"u", "p", "ASKED", 172800⟩, ⟨"u", "p", "USED", 7200⟩, ⟨"u", "p2", "ASKED", 14400⟩, ⟨"u", "p2", "USED", 400⟩],
    ⟨86400, 172799, 14400, 400, [("p", 172800, 7200), ("p2", 14400, 400)]⟩, by decide +kernel, by decide +kernel, fun r => by simp, by decide, rfl, rfl⟩

/-- A job that ran longer than its walltime (it was suspended), and a wide one that ran for a short while. -/
def jobLong : AJob := ⟨1, "Terminated", 1000, 1000 + 172800, 100, "u", "p", "q", 1, false⟩
def jobWide : AJob := ⟨2, "Terminated", 1000, 1010, 3600, "u", "p", "q", 100, false⟩

/-- **C112, violated.** The "End of the last window" is not the one of the last window of the report: a window of the third day is counted
in the figure of the consumption used (172800 seconds are shown, a window has 86400 of them for this job), and the end shown is the one of
the first day. -/
theorem last_window_violated :
    ∃ (t : Table) (jobs log : List AJob) (l : List Group) (p : List PGroup) (s : Shown), History 86400 t jobs log ∧
      Answer (rowsOf t 0 864000 (some "u")) l ∧ PAnswer (rowsOf t 0 864000 (some "u")) p ∧ shownUser "u" l p = some s ∧
      s.stop = 86399 ∧ s.used = 173800 ∧ ∃ r ∈ rowsOf t 0 864000 (some "u"), r.1.wstop = 259199 ∧ r.1.ctype = "USED" ∧ r.2 = 1000 := by
  refine ⟨(checkAccounting 86400 [] [jobLong, jobWide]).1, _, _,
    [⟨"u", "USED", 173800, 0, 259199⟩, ⟨"u", "ASKED", 360100, 0, 86399⟩], [⟨"u", "p", "ASKED", 360100⟩, ⟨"u", "p", "USED", 173800⟩],
    ⟨0, 86399, 360100, 173800, [("p", 360100, 173800)]⟩,
    History.pass (History.start [jobLong, jobWide] (by decide)), by decide +kernel, by decide +kernel, by decide, rfl, rfl,
    (⟨172800, 259199, "u", "p", "q", "USED"⟩, 1000), by decide +kernel, rfl, rfl, rfl⟩

end Oar.Report
