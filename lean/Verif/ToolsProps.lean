import Verif.Tools

/-!
# C29: durations
-/

namespace Oar.Tools

theorem ch_spec {d : Nat} (h : d < 10) : (ch d).toNat - 48 = d ∧ (ch d).isDigit = true ∧ ch d ≠ ':' ∧ ch d ≠ '-' ∧ ch d ≠ '+' := by
  have : ∀ d, d < 10 → (ch d).toNat - 48 = d ∧ (ch d).isDigit = true ∧ ch d ≠ ':' ∧ ch d ≠ '-' ∧ ch d ≠ '+' := by decide
  exact this d h

theorem val_append (l : List Char) (c : Char) : val (l ++ [c]) = val l * 10 + (c.toNat - 48) := by simp [val]

theorem digF_spec : ∀ (f n : Nat), n < f → digF f n ≠ [] ∧ (digF f n).all Char.isDigit = true ∧ val (digF f n) = n ∧
    ∀ c ∈ digF f n, c ≠ ':' ∧ c ≠ '-' ∧ c ≠ '+'
  | 0, n, h => absurd h (Nat.not_lt_zero n)
  | f + 1, n, h => by
    unfold digF
    split
    · rename_i h10
      obtain ⟨h1, h2, h3⟩ := ch_spec h10
      refine ⟨by simp, by simp [h2], by simp [val, h1], ?_⟩
      intro c hc
      rw [List.mem_singleton.1 hc]
      exact h3
    · rename_i h10
      have hlt : n / 10 < f := by omega
      obtain ⟨_, h2, h3, h4⟩ := digF_spec f (n / 10) hlt
      obtain ⟨c1, c2, c3⟩ := ch_spec (Nat.mod_lt n (by decide : 0 < 10))
      refine ⟨by simp, ?_, ?_, ?_⟩
      · rw [List.all_append, h2]; simp [c2]
      · rw [val_append, h3, c1]; omega
      · intro c hc
        rcases List.mem_append.1 hc with hc | hc
        · exact h4 c hc
        · rw [List.mem_singleton.1 hc]; exact c3

theorem digits_spec (n : Nat) : digits n ≠ [] ∧ (digits n).all Char.isDigit = true ∧ val (digits n) = n ∧
    ∀ c ∈ digits n, c ≠ ':' ∧ c ≠ '-' ∧ c ≠ '+' := digF_spec (n + 1) n (by omega)

theorem pyNat_digits (n : Nat) : pyNat (digits n) = some n := by
  obtain ⟨h1, h2, h3, _⟩ := digits_spec n
  unfold pyNat
  rw [if_pos ⟨h1, h2⟩, h3]

theorem pyInt_digits (n : Nat) : pyInt (digits n) = some (n : Int) := by
  obtain ⟨h1, _, _, h4⟩ := digits_spec n
  unfold pyInt
  split
  · rename_i r e; exact absurd rfl (h4 '-' (by rw [e]; simp)).2.1
  · rename_i r e; exact absurd rfl (h4 '+' (by rw [e]; simp)).2.2
  · rw [pyNat_digits]; rfl

/-- `int(str(n)) = n`. -/
theorem pyInt_str (n : Int) : pyInt (str n) = some n := by
  unfold str
  split
  · rename_i h
    rw [show pyInt ('-' :: digits n.natAbs) = (pyNat (digits n.natAbs)).map (fun n => - (n : Int)) by simp [pyInt], pyNat_digits]
    show some (-(n.natAbs : Int)) = some n
    congr 1
    omega
  · rename_i h
    rw [pyInt_digits]
    congr 1
    omega

theorem str_no_colon (n : Int) : ∀ c ∈ str n, c ≠ ':' := by
  intro c hc
  unfold str at hc
  split at hc
  · rcases List.mem_cons.1 hc with rfl | hc
    · decide
    · exact ((digits_spec _).2.2.2 c hc).1
  · exact ((digits_spec _).2.2.2 c hc).1

theorem split_nil_sep (l : List Char) (c : Char) (h : ∀ x ∈ l, x ≠ c) : split c l = [l] := by
  induction l with
  | nil => rfl
  | cons x xs ih =>
    unfold split
    rw [if_neg (h x (by simp)), ih (fun y hy => h y (by simp [hy]))]

theorem split_cons_sep (a b : List Char) (c : Char) (h : ∀ x ∈ a, x ≠ c) : split c (a ++ c :: b) = a :: split c b := by
  induction a with
  | nil =>
    show split c (c :: b) = _
    rw [split, if_pos rfl]
  | cons x xs ih =>
    show split c (x :: (xs ++ c :: b)) = _
    rw [split, if_neg (h x (by simp)), ih (fun y hy => h y (by simp [hy]))]

/-- Hours, minutes and seconds of any duration: the last two are below 60 and the three give the duration back. -/
theorem duration_hms (t : Int) :
    0 ≤ (durationToHms t).2.1 ∧ (durationToHms t).2.1 < 60 ∧ 0 ≤ (durationToHms t).2.2 ∧ (durationToHms t).2.2 < 60 ∧
    (durationToHms t).1 * 3600 + (durationToHms t).2.1 * 60 + (durationToHms t).2.2 = t := by
  unfold durationToHms
  dsimp only
  omega

/-- They are the only ones. -/
theorem hms_unique (h m s : Int) (hm : 0 ≤ m ∧ m < 60) (hs : 0 ≤ s ∧ s < 60) : durationToHms (h * 3600 + m * 60 + s) = (h, m, s) := by
  unfold durationToHms
  refine Prod.ext ?_ (Prod.ext ?_ ?_) <;> dsimp only <;> omega

/-- The textual form is read back exactly. -/
theorem sql_roundtrip (t : Int) : sqlToDuration (durationToSql t) = some t := by
  unfold sqlToDuration sqlToHms durationToSql hmsToSql
  rw [split_cons_sep _ _ _ (str_no_colon _), split_cons_sep _ _ _ (str_no_colon _), split_nil_sep _ _ (str_no_colon _)]
  show hmsToDuration (str _) (str _) (str _) = some t
  unfold hmsToDuration
  rw [pyInt_str, pyInt_str, pyInt_str]
  show some _ = some t
  rw [(duration_hms t).2.2.2.2]

/-- The signed form: the sign of the duration followed by the text of its absolute value. -/
theorem sql_signed (t : Int) : ∃ sg r, durationToSqlSigned t = sg ++ r ∧ sqlToDuration r = some (t.natAbs : Int) ∧
    (0 < t → sg = ['+']) ∧ (t < 0 → sg = ['-']) ∧ (t = 0 → sg = []) := by
  refine ⟨_, _, rfl, sql_roundtrip _, ?_, ?_, ?_⟩
  · intro h; rw [if_pos h]
  · intro h; rw [if_neg (by omega), if_pos h]
  · intro h; rw [if_neg (by omega), if_neg (by omega)]

/-- The durations of a submission: `h`, `h:m` and `h:m:s` are worth `3600 h + 60 m + s` seconds. -/
theorem hms_parsed (h m s : Int) : hmsStrToDuration (str h) = some (3600 * h) ∧
    hmsStrToDuration (str h ++ ':' :: str m) = some (3600 * h + 60 * m) ∧
    hmsStrToDuration (str h ++ ':' :: (str m ++ ':' :: str s)) = some (3600 * h + 60 * m + s) := by
  unfold hmsStrToDuration
  refine ⟨?_, ?_, ?_⟩
  · rw [split_nil_sep _ _ (str_no_colon _)]
    dsimp only
    rw [pyInt_str]; rfl
  · rw [split_cons_sep _ _ _ (str_no_colon _), split_nil_sep _ _ (str_no_colon _)]
    dsimp only
    rw [pyInt_str, pyInt_str]
  · rw [split_cons_sep _ _ _ (str_no_colon _), split_cons_sep _ _ _ (str_no_colon _), split_nil_sep _ _ (str_no_colon _)]
    dsimp only
    rw [pyInt_str, pyInt_str, pyInt_str]

example : hmsStrToDuration (txt "1:30") = some 5400 ∧ durationToSql 5405 = txt "1:30:5" ∧ durationToSqlSigned (-90) = txt "-0:1:30" ∧
    durationToHms (-10) = (-1, 59, 50) := by decide

/-- Further fields are silently ignored. -/
theorem hms_extra_ignored_violated : hmsStrToDuration (txt "0:0:1:50") = some 1 := by decide

/-- The numbers of seconds of the units printed. -/
def unitSeconds (u : String) : Nat :=
  if u = "wk" then 604800 else if u = "d" then 86400 else if u = "hr" then 3600 else if u = "min" then 60 else 1

/-- The parts printed sum to the duration, none of them is null. -/
theorem compound_sum (n : Nat) : ((getDuration n).map (fun p => p.1 * unitSeconds p.2)).sum = n ∧ ∀ p ∈ getDuration n, p.1 ≠ 0 := by
  constructor
  · have key : ∀ l : List (Nat × String), ((l.filter (fun p => p.1 ≠ 0)).map (fun p => p.1 * unitSeconds p.2)).sum =
        (l.map (fun p => p.1 * unitSeconds p.2)).sum := by
      intro l
      induction l with
      | nil => rfl
      | cons p l ih =>
        by_cases hp : p.1 = 0
        · rw [List.filter_cons_of_neg (by simpa using hp), ih]
          simp [hp]
        · rw [List.filter_cons_of_pos (by simpa using hp)]
          simp only [List.map_cons, List.sum_cons, ih]
    unfold getDuration
    rw [key]
    simp only [compound, List.reverse_cons, List.reverse_nil, List.nil_append, List.cons_append, List.zip_cons_cons, List.zip_nil_right,
      List.map_cons, List.map_nil, List.sum_cons, List.sum_nil, show unitSeconds "wk" = 604800 from by decide,
      show unitSeconds "d" = 86400 from by decide, show unitSeconds "hr" = 3600 from by decide, show unitSeconds "min" = 60 from by decide,
      show unitSeconds "sec" = 1 from by decide]
    omega
  · intro p hp
    have := (List.mem_filter.1 hp).2
    simpa using this

example : getDuration 90061 = [(1, "d"), (1, "hr"), (1, "min"), (1, "sec")] := by decide

end Oar.Tools
