import Verif.QuotasFile
import Verif.QuotasFileSpec
import Verif.CalendarProps
import Verif.ToolsProps
import Verif.QuotasFileValues

/-!
# C93: the quota rules are applied as written in their file
-/

namespace Oar.QuotasFile

open Oar.Tools Oar.Quotas Oar.QuotasFile.Spec

/-! ## The text of a period -/

/-- No blank character. -/
def NoBlank (a : T) : Prop := ∀ c ∈ a, blank c = false

theorem noBlank_append {a b : T} (ha : NoBlank a) (hb : NoBlank b) : NoBlank (a ++ b) := by
  intro c hc
  rcases List.mem_append.1 hc with h | h
  · exact ha c h
  · exact hb c h

theorem noBlank_cons {x : Char} {b : T} (hx : blank x = false) (hb : NoBlank b) : NoBlank (x :: b) := by
  intro c hc
  rcases List.mem_cons.1 hc with rfl | h
  · exact hx
  · exact hb c h

theorem noBlank_map {a : T} (h : NoBlank a) : a.map (fun c => if blank c then ' ' else c) = a := by
  induction a with
  | nil => rfl
  | cons x a ih =>
    rw [List.map_cons, ih (fun c hc => h c (List.mem_cons_of_mem _ hc))]
    rw [h x (List.mem_cons_self ..)]
    rfl

theorem noBlank_space {a : T} (h : NoBlank a) : ∀ c ∈ a, c ≠ ' ' := by
  rintro c hc rfl
  have := h _ hc
  exact absurd this (by decide)

theorem words4 (a b c d : T) (ha : NoBlank a) (hb : NoBlank b) (hc : NoBlank c) (hd : NoBlank d) (na : a ≠ []) (nb : b ≠ []) (nc : c ≠ []) (nd : d ≠ []) :
    words (a ++ ' ' :: (b ++ ' ' :: (c ++ ' ' :: d))) = [a, b, c, d] := by
  have e : (a ++ ' ' :: (b ++ ' ' :: (c ++ ' ' :: d))).map (fun c => if blank c then ' ' else c) = a ++ ' ' :: (b ++ ' ' :: (c ++ ' ' :: d)) := by
    simp only [List.map_append, List.map_cons, noBlank_map ha, noBlank_map hb, noBlank_map hc, noBlank_map hd]
    rfl
  unfold words
  rw [e, split_cons_sep _ _ _ (noBlank_space ha), split_cons_sep _ _ _ (noBlank_space hb), split_cons_sep _ _ _ (noBlank_space hc),
    split_nil_sep _ _ (noBlank_space hd)]
  simp [na, nb, nc, nd]

theorem isDigit_ne {c : Char} (h : c.isDigit = true) : blank c = false ∧ c ≠ '-' ∧ c ≠ ':' ∧ c ≠ '*' ∧ c ≠ ',' ∧ c ≠ '.' ∧ c ≠ '+' := by
  have hk : ∀ k : Char, k.isDigit = false → c ≠ k := by
    rintro k hk rfl
    rw [h] at hk; cases hk
  refine ⟨?_, hk _ (by decide), hk _ (by decide), hk _ (by decide), hk _ (by decide), hk _ (by decide), hk _ (by decide)⟩
  unfold blank
  have h1 := hk ' ' (by decide)
  have h2 := hk '\t' (by decide)
  have h3 := hk '\n' (by decide)
  have h4 := hk '\r' (by decide)
  have h5 := hk '\x0b' (by decide)
  have h6 := hk '\x0c' (by decide)
  simp [h1, h2, h3, h4, h5, h6]

theorem digits_isDigit (n : Nat) : ∀ c ∈ digits n, c.isDigit = true := by
  have := (digits_spec n).2.1
  rw [List.all_eq_true] at this
  exact this

theorem noBlank_digits (n : Nat) : NoBlank (digits n) := fun c hc => (isDigit_ne (digits_isDigit n c hc)).1

theorem digits_ne_nil (n : Nat) : digits n ≠ [] := (digits_spec n).1

theorem hm_value (h m : Nat) : hmsStrToDuration (digits h ++ ':' :: digits m) = some (3600 * (h : Int) + 60 * (m : Int)) := by
  unfold hmsStrToDuration
  rw [split_cons_sep _ _ _ (fun c hc => (isDigit_ne (digits_isDigit h c hc)).2.2.1),
    split_nil_sep _ _ (fun c hc => (isDigit_ne (digits_isDigit m c hc)).2.2.1)]
  simp only [pyInt_digits]

theorem hours_text (w : Hours) : NoBlank w.text ∧ w.text ≠ [] := by
  cases w with
  | all => exact ⟨by intro c hc; revert c; decide, by decide⟩
  | range h0 m0 h1 m1 =>
    constructor
    · unfold Hours.text
      have a := noBlank_digits
      have h := noBlank_append (a h0) (noBlank_append (noBlank_cons (x := ':') (by decide) (a m0)) (noBlank_append (noBlank_cons (x := '-') (by decide) (a h1))
        (noBlank_cons (x := ':') (by decide) (a m1))))
      simpa using h
    · unfold Hours.text
      simp [digits_ne_nil]

/-- The facts on the name of a day. -/
theorem dayName_spec (d : Nat) : NoBlank (dayName d) ∧ dayName d ≠ [] ∧ (∀ c ∈ dayName d, c ≠ '-' ∧ c ≠ ',') ∧ dayName d ≠ txt "*" := by
  have : dayName d = dayName (min d 6) := by
    rcases d with _ | _ | _ | _ | _ | _ | d <;> simp [dayName]
  rw [this]
  have h : min d 6 < 7 := by omega
  generalize min d 6 = e at h
  unfold NoBlank
  revert h
  revert e
  decide

theorem day_name (d : Nat) (h : d < 7) : day (dayName d) = some (d : Int) := by
  revert h; revert d; decide

theorem split_join (xs : List T) (hne : xs ≠ []) (h : ∀ x ∈ xs, ∀ c ∈ x, c ≠ ',') : split ',' (List.intercalate [','] xs) = xs := by
  induction xs with
  | nil => exact absurd rfl hne
  | cons x r ih =>
    cases r with
    | nil => simpa [List.intercalate] using split_nil_sep x ',' (h x (List.mem_cons_self ..))
    | cons y r =>
      have e : List.intercalate [','] (x :: y :: r) = x ++ ',' :: List.intercalate [','] (y :: r) := by
        simp [List.intercalate]
      rw [e, split_cons_sep _ _ _ (h x (List.mem_cons_self ..)), ih (by simp) (fun z hz => h z (List.mem_cons_of_mem _ hz))]

theorem mem_intercalate (xs : List T) (c : Char) (h : c ∈ List.intercalate [','] xs) : c = ',' ∨ ∃ x ∈ xs, c ∈ x := by
  induction xs with
  | nil => simp [List.intercalate] at h
  | cons x r ih =>
    cases r with
    | nil => exact Or.inr ⟨x, by simp, by simpa [List.intercalate] using h⟩
    | cons y r =>
      have e : List.intercalate [','] (x :: y :: r) = x ++ ',' :: List.intercalate [','] (y :: r) := by
        simp [List.intercalate]
      rw [e, List.mem_append, List.mem_cons] at h
      rcases h with h | h | h
      · exact Or.inr ⟨x, by simp, h⟩
      · exact Or.inl h
      · rcases ih h with h | ⟨z, hz, hc⟩
        · exact Or.inl h
        · exact Or.inr ⟨z, List.mem_cons_of_mem _ hz, hc⟩

theorem intercalate_ne (ds : List Nat) (h : ds ≠ []) : List.intercalate [','] (ds.map dayName) ≠ [] ∧ List.intercalate [','] (ds.map dayName) ≠ txt "*" := by
  cases ds with
  | nil => exact absurd rfl h
  | cons d r =>
    cases r with
    | nil =>
      have e : List.intercalate [','] ([d].map dayName) = dayName d := by simp [List.intercalate]
      rw [e]
      exact ⟨(dayName_spec d).2.1, (dayName_spec d).2.2.2⟩
    | cons y r =>
      have e : List.intercalate [','] ((d :: y :: r).map dayName) = dayName d ++ ',' :: List.intercalate [','] ((y :: r).map dayName) := by
        simp [List.intercalate]
      rw [e]
      refine ⟨by simp, fun hh => ?_⟩
      have : ',' ∈ txt "*" := by rw [← hh]; simp
      revert this; decide

theorem days_text (w : Days) (h : ∀ ds, w = .list ds → ds ≠ []) : NoBlank w.text ∧ w.text ≠ [] := by
  cases w with
  | all => exact ⟨by intro c hc; revert c; decide, by decide⟩
  | range d0 d1 =>
    exact ⟨noBlank_append (dayName_spec d0).1 (noBlank_cons (by decide) (dayName_spec d1).1), by simp [Days.text]⟩
  | list ds =>
    refine ⟨fun c hc => ?_, (intercalate_ne ds (h ds rfl)).1⟩
    rcases mem_intercalate _ c hc with rfl | ⟨x, hx, hc⟩
    · decide
    · obtain ⟨d, _, rfl⟩ := List.mem_map.1 hx
      exact (dayName_spec d).1 c hc

/-- The begin and the duration written by the hours of a period. -/
def hb : Hours → Int × Int
  | .all => (0, 86400)
  | .range h0 m0 h1 m1 => (3600 * (h0 : Int) + 60 * m0, hourDuration (3600 * (h0 : Int) + 60 * m0) (3600 * (h1 : Int) + 60 * m1))

theorem hours_parsed (w : Hours) : hours w.text = some (hb w) := by
  cases w with
  | all => rfl
  | range h0 m0 h1 m1 =>
    have hne : Hours.text (.range h0 m0 h1 m1) ≠ txt "*" := by
      intro hh
      have : ':' ∈ txt "*" := by rw [← hh]; simp [Hours.text]
      revert this; decide
    have e : Hours.text (.range h0 m0 h1 m1) = (digits h0 ++ ':' :: digits m0) ++ '-' :: (digits h1 ++ ':' :: digits m1) := by simp [Hours.text]
    have hd : ∀ h m : Nat, ∀ c ∈ digits h ++ ':' :: digits m, c ≠ '-' := by
      intro h m c hc
      rcases List.mem_append.1 hc with hc | hc
      · exact (isDigit_ne (digits_isDigit h c hc)).2.1
      · rcases List.mem_cons.1 hc with rfl | hc
        · decide
        · exact (isDigit_ne (digits_isDigit m c hc)).2.1
    unfold hours
    rw [if_neg hne, e, split_cons_sep _ _ _ (hd h0 m0), split_nil_sep _ _ (hd h1 m1)]
    dsimp only
    rw [hm_value, hm_value]
    rfl

theorem mapM_day (ds : List Nat) (h : ∀ d ∈ ds, d < 7) : (ds.map dayName).mapM day = some (ds.map (fun d : Nat => (d : Int))) := by
  induction ds with
  | nil => rfl
  | cons d r ih =>
    rw [List.map_cons, List.mapM_cons, day_name d (h d (List.mem_cons_self ..)), ih (fun x hx => h x (List.mem_cons_of_mem _ hx))]
    rfl

theorem hours_text_all (w : Hours) : w.text = txt "*" ↔ w = .all := by
  cases w with
  | all => simp [Hours.text]
  | range h0 m0 h1 m1 =>
    refine ⟨fun hh => ?_, fun hh => by cases hh⟩
    have : ':' ∈ txt "*" := by rw [← hh]; simp [Hours.text]
    exact absurd this (by decide)

/-- The days and the duration written by a period. -/
def db (w : When) : List Int × Int :=
  match w.days with
  | .all => ((List.range 7).map (fun i : Nat => (i : Int)), (hb w.hours).2)
  | .range d0 d1 =>
    if w.hours = .all then ([(d0 : Int)], 86400 * ((if (d0 : Int) > d1 then (d1 : Int) + 7 else d1) - d0 + 1))
    else (dayRange d0 d1, (hb w.hours).2)
  | .list ds => (ds.map (fun d : Nat => (d : Int)), (hb w.hours).2)

theorem days_parsed (w : When) (hs : w.Sound) : days w.hours.text w.days.text (hb w.hours).2 = some (db w) := by
  obtain ⟨ho, d⟩ := w
  cases d with
  | all => rfl
  | range d0 d1 =>
    obtain ⟨_, h0, h1, _⟩ := hs
    have hne : Days.text (.range d0 d1) ≠ txt "*" := by
      intro hh
      have : '-' ∈ txt "*" := by rw [← hh]; simp [Days.text]
      revert this; decide
    have hm : '-' ∈ Days.text (.range d0 d1) := by simp [Days.text]
    have e : Days.text (.range d0 d1) = dayName d0 ++ '-' :: dayName d1 := rfl
    unfold days
    dsimp only
    rw [if_neg hne, if_pos hm, e, split_cons_sep _ _ _ (fun c hc => ((dayName_spec d0).2.2.1 c hc).1), split_nil_sep _ _ (fun c hc => ((dayName_spec d1).2.2.1 c hc).1)]
    dsimp only
    rw [day_name d0 h0, day_name d1 h1]
    dsimp only [db]
    by_cases hh : ho = .all
    · rw [if_pos ((hours_text_all ho).2 hh), if_pos hh]
    · rw [if_neg (fun h => hh ((hours_text_all ho).1 h)), if_neg hh]
  | list ds =>
    obtain ⟨_, hn, _, h7⟩ := hs
    have hm : '-' ∉ Days.text (.list ds) := by
      intro hc
      rcases mem_intercalate _ _ hc with h | ⟨x, hx, hc⟩
      · revert h; decide
      · obtain ⟨d, _, rfl⟩ := List.mem_map.1 hx
        exact ((dayName_spec d).2.2.1 _ hc).1 rfl
    unfold days
    dsimp only
    rw [if_neg (show Days.text (.list ds) ≠ txt "*" from (intercalate_ne ds hn).2), if_neg hm]
    show Option.map _ ((split ',' (List.intercalate [','] (ds.map dayName))).mapM day) = _
    rw [split_join _ (by simpa using hn) (by
      intro x hx c hc
      obtain ⟨d, _, rfl⟩ := List.mem_map.1 hx
      exact ((dayName_spec d).2.2.1 c hc).2), mapM_day ds h7]
    rfl

theorem period_parsed (w : When) (hs : w.Sound) (id : Nat) : periodOf w.text id = some (addDays (hb w.hours).1 id (db w).2 (db w).1) := by
  have hd := days_text w.days (by
    intro ds h
    have := hs.2
    rw [h] at this
    exact this.1)
  have hh := hours_text w.hours
  have e : w.text = w.hours.text ++ ' ' :: (w.days.text ++ ' ' :: (txt "*" ++ ' ' :: txt "*")) := by
    simp [When.text, txt]
  have hs' : NoBlank (txt "*") := by intro c hc; revert c; decide
  unfold periodOf
  rw [e, words4 _ _ _ _ hh.1 hd.1 hs' hs' hh.2 hd.2 (by decide) (by decide)]
  dsimp only
  rw [if_neg (by simp), hours_parsed]
  dsimp only
  rw [days_parsed w hs]

/-! ## The seconds of a period -/

theorem addDays_plain (b d : Int) (id : Nat) (l : List Int) (hl : ∀ i ∈ l, i ≤ 6) (hd : b + d ≤ 86400) :
    addDays b id d l = l.map (fun i => ⟨86400 * i + b, d, id⟩) := by
  induction l with
  | nil => rfl
  | cons i r ih =>
    have hi := hl i (List.mem_cons_self ..)
    have e : addDay b d id i = ([⟨86400 * i + b, d, id⟩], d) := by
      unfold addDay week
      dsimp only
      rw [if_neg (by omega)]
    unfold addDays
    rw [e, ih (fun x hx => hl x (List.mem_cons_of_mem _ hx))]
    rfl

/-- The facts wanted of the entries of a period. -/
structure Covers (w : When) (id : Nat) (es : List Periodical) : Prop where
  rules : ∀ p ∈ es, p.rulesId = id
  inWeek : ∀ p ∈ es, p.InWeek
  apart : es.Pairwise Apart
  exact_ : ∀ x, 0 ≤ x → x < weekSeconds → ((∃ p ∈ es, p.Contains x) ↔ w.has x)

theorem covers_days (w : When) (id : Nat) (b d : Int) (l : List Int) (hn : l.Nodup) (hl : ∀ i ∈ l, 0 ≤ i ∧ i ≤ 6) (hb : 0 ≤ b) (hd : 0 < d) (he : b + d ≤ 86400)
    (hdays : ∀ i, 0 ≤ i → i ≤ 6 → (w.days.has i ↔ i ∈ l)) (hh : ∀ s, 0 ≤ s → s < 86400 → (w.hours.has s ↔ b ≤ s ∧ s < b + d)) :
    Covers w id (addDays b id d l) := by
  rw [addDays_plain b d id l (fun i hi => (hl i hi).2) he]
  refine ⟨?_, ?_, ?_, ?_⟩
  · intro p hp
    obtain ⟨i, _, rfl⟩ := List.mem_map.1 hp
    rfl
  · intro p hp
    obtain ⟨i, hi, rfl⟩ := List.mem_map.1 hp
    have := hl i hi
    unfold Periodical.InWeek week
    dsimp only
    omega
  · rw [List.pairwise_map]
    refine hn.imp (fun {i j} hij => ?_)
    unfold Apart
    dsimp only
    omega
  · intro x h0 h1
    unfold weekSeconds at h1
    have hx : 0 ≤ x / 86400 ∧ x / 86400 ≤ 6 := by omega
    unfold When.has
    rw [hdays _ hx.1 hx.2, hh _ (by omega) (by omega)]
    constructor
    · rintro ⟨p, hp, hc⟩
      obtain ⟨i, hi, rfl⟩ := List.mem_map.1 hp
      have := hl i hi
      unfold Periodical.Contains at hc
      dsimp only at hc
      have e : x / 86400 = i := by omega
      rw [e]
      refine ⟨hi, ?_, ?_⟩ <;> omega
    · rintro ⟨hi, h2, h3⟩
      refine ⟨_, List.mem_map.2 ⟨_, hi, rfl⟩, ?_⟩
      unfold Periodical.Contains
      dsimp only
      omega

theorem hb_sound (h0 m0 h1 m1 : Nat) (hs : h0 * 3600 + m0 * 60 < 86400 ∧ h1 * 3600 + m1 * 60 ≤ 86400 ∧
      (h0 * 3600 + m0 * 60 < h1 * 3600 + m1 * 60 ∨ h1 * 3600 + m1 * 60 = 0)) :
    0 ≤ (hb (.range h0 m0 h1 m1)).1 ∧ 0 < (hb (.range h0 m0 h1 m1)).2 ∧ (hb (.range h0 m0 h1 m1)).1 + (hb (.range h0 m0 h1 m1)).2 ≤ 86400 ∧
      ∀ s, 0 ≤ s → s < 86400 → ((Hours.range h0 m0 h1 m1).has s ↔ (hb (.range h0 m0 h1 m1)).1 ≤ s ∧ s < (hb (.range h0 m0 h1 m1)).1 + (hb (.range h0 m0 h1 m1)).2) := by
  simp only [hb, hourDuration, Hours.has]
  by_cases he : h1 * 3600 + m1 * 60 = 0
  · rw [if_neg (by omega)]
    refine ⟨by omega, by omega, by omega, fun s _ _ => ?_⟩
    omega
  · rw [if_pos (by omega)]
    refine ⟨by omega, by omega, by omega, fun s _ _ => ?_⟩
    omega

theorem hours_sound (w : When) (hs : w.Sound) : 0 ≤ (hb w.hours).1 ∧ 0 < (hb w.hours).2 ∧ (hb w.hours).1 + (hb w.hours).2 ≤ 86400 ∧
      ∀ s, 0 ≤ s → s < 86400 → (w.hours.has s ↔ (hb w.hours).1 ≤ s ∧ s < (hb w.hours).1 + (hb w.hours).2) := by
  obtain ⟨h, d⟩ := w
  cases h with
  | all =>
    simp only [hb, Hours.has]
    refine ⟨by omega, by omega, by omega, fun s _ _ => ⟨fun _ => ?_, fun _ => trivial⟩⟩
    omega
  | range h0 m0 h1 m1 => exact hb_sound h0 m0 h1 m1 hs.1

/-- **The seconds of a period.** A written period gives entries which contain exactly the seconds of the week of its days and hours, once each, with its rules. -/
theorem period_covers (w : When) (hs : w.Sound) (id : Nat) : ∃ es, periodOf w.text id = some es ∧ Covers w id es := by
  refine ⟨_, period_parsed w hs id, ?_⟩
  obtain ⟨q1, q2, q3, q4⟩ := hours_sound w hs
  obtain ⟨ho, d⟩ := w
  dsimp only at q1 q2 q3 q4
  cases d with
  | all =>
    have e : db ⟨ho, .all⟩ = ((List.range 7).map (fun i : Nat => (i : Int)), (hb ho).2) := rfl
    rw [e]
    refine covers_days _ _ _ _ _ (show ((List.range 7).map (fun i : Nat => (i : Int))).Nodup by decide)
      (show ∀ i ∈ (List.range 7).map (fun i : Nat => (i : Int)), 0 ≤ i ∧ i ≤ 6 by decide) q1 q2 q3 ?_ q4
    intro i hi hj
    constructor
    · intro _
      show i ∈ (List.range 7).map (fun i : Nat => (i : Int))
      rw [List.mem_map]
      exact ⟨i.toNat, by rw [List.mem_range]; omega, by omega⟩
    · intro _; trivial
  | list ds =>
    obtain ⟨_, hne, hnd, h7⟩ := hs
    refine covers_days _ _ _ _ _ ?_ ?_ q1 q2 q3 ?_ q4
    · show (ds.map (fun d : Nat => (d : Int))).Nodup
      unfold List.Nodup
      rw [List.pairwise_map]
      exact hnd.imp (fun {a b} hab h => hab (by omega))
    · intro i hi
      obtain ⟨d, hd, rfl⟩ := List.mem_map.1 hi
      have := h7 d hd
      omega
    · intro i _ _
      show (∃ x ∈ ds, (x : Int) = i) ↔ i ∈ ds.map (fun d : Nat => (d : Int))
      rw [List.mem_map]
  | range d0 d1 =>
    obtain ⟨hh, h0, h1, hle⟩ := hs
    by_cases hall : ho = .all
    · subst hall
      have e : db ⟨.all, .range d0 d1⟩ = ([(d0 : Int)], 86400 * ((if (d0 : Int) > d1 then (d1 : Int) + 7 else d1) - d0 + 1)) := by
        unfold db; dsimp only; rw [if_pos rfl]
      rw [e]
      show Covers _ id (addDays 0 id (86400 * ((if (d0 : Int) > d1 then (d1 : Int) + 7 else d1) - d0 + 1)) [(d0 : Int)])
      by_cases hc : (d0 : Int) > d1
      · rw [if_pos hc]
        have e2 : addDays 0 id (86400 * ((d1 : Int) + 7 - d0 + 1)) [(d0 : Int)] =
            [⟨0, 86400 * ((d1 : Int) + 1), id⟩, ⟨86400 * d0, 604800 - 86400 * d0, id⟩] := by
          have e3 : addDay 0 (86400 * ((d1 : Int) + 7 - d0 + 1)) id d0 = ([⟨0, (86400 * d0 + 0 + 86400 * ((d1 : Int) + 7 - d0 + 1)) % 604800, id⟩,
              ⟨86400 * d0 + 0, 86400 * ((d1 : Int) + 7 - d0 + 1) - (86400 * d0 + 0 + 86400 * ((d1 : Int) + 7 - d0 + 1)) % 604800, id⟩],
              86400 * ((d1 : Int) + 7 - d0 + 1) - (86400 * d0 + 0 + 86400 * ((d1 : Int) + 7 - d0 + 1)) % 604800) := by
            unfold addDay week
            dsimp only
            rw [if_pos (by omega)]
            rfl
          unfold addDays addDays
          rw [e3]
          simp only [List.append_nil, List.cons.injEq, Periodical.mk.injEq, and_true, true_and]
          refine ⟨?_, ?_, ?_⟩ <;> omega
        rw [e2]
        refine ⟨by simp, ?_, ?_, ?_⟩
        · intro p hp
          simp only [List.mem_cons, List.not_mem_nil, or_false] at hp
          rcases hp with rfl | rfl <;> unfold Periodical.InWeek week <;> dsimp only <;> omega
        · simp only [List.pairwise_cons, List.mem_singleton, forall_eq, List.not_mem_nil, false_imp_iff, implies_true, List.Pairwise.nil, and_true]
          unfold Apart; dsimp only; omega
        · intro x hx0 hx1
          unfold weekSeconds at hx1
          simp only [List.mem_cons, List.not_mem_nil, or_false, exists_eq_or_imp, exists_eq_left, When.has, Days.has, Hours.has, Periodical.Contains, and_true]
          rw [if_neg (by omega)]
          omega
      · rw [if_neg hc]
        have e2 : addDays 0 id (86400 * ((d1 : Int) - d0 + 1)) [(d0 : Int)] = [⟨86400 * d0, 86400 * ((d1 : Int) - d0 + 1), id⟩] := by
          have e3 : addDay 0 (86400 * ((d1 : Int) - d0 + 1)) id d0 = ([⟨86400 * d0 + 0, 86400 * ((d1 : Int) - d0 + 1), id⟩], 86400 * ((d1 : Int) - d0 + 1)) := by
            unfold addDay week
            dsimp only
            rw [if_neg (by omega)]
          unfold addDays addDays
          rw [e3]
          simp
        rw [e2]
        refine ⟨by simp, ?_, by simp, ?_⟩
        · intro p hp
          simp only [List.mem_cons, List.not_mem_nil, or_false] at hp
          subst hp
          unfold Periodical.InWeek week; dsimp only; omega
        · intro x hx0 hx1
          unfold weekSeconds at hx1
          simp only [List.mem_cons, List.not_mem_nil, or_false, exists_eq_left, When.has, Days.has, Hours.has, Periodical.Contains, and_true]
          rw [if_pos (by omega)]
          omega
    · have e : db ⟨ho, .range d0 d1⟩ = (dayRange d0 d1, (hb ho).2) := by
        unfold db; dsimp only; rw [if_neg hall]
      rw [e]
      have hle := hle hall
      refine covers_days _ _ _ _ _ ?_ ?_ q1 q2 q3 ?_ q4
      · show (dayRange d0 d1).Nodup
        unfold dayRange List.Nodup
        rw [List.pairwise_map]
        exact List.nodup_range.imp (fun {a b} hab h => hab (by omega))
      · intro i hi
        obtain ⟨k, hk, rfl⟩ := List.mem_map.1 hi
        have := List.mem_range.1 hk
        omega
      · intro i _ _
        show (if d0 ≤ d1 then (d0 : Int) ≤ i ∧ i ≤ d1 else (d0 : Int) ≤ i ∨ i ≤ d1) ↔ i ∈ dayRange d0 d1
        rw [if_pos hle]
        unfold dayRange
        rw [List.mem_map]
        constructor
        · rintro ⟨a, b⟩
          exact ⟨(i - d0).toNat, by rw [List.mem_range]; omega, by omega⟩
        · rintro ⟨k, hk, rfl⟩
          have := List.mem_range.1 hk
          omega

/-! ## The calendar -/

theorem mapM_ok {α β : Type} (f : α → Option β) (l : List α) (h : ∀ x ∈ l, ∃ y, f x = some y) : ∃ r, l.mapM f = some r := by
  induction l with
  | nil => exact ⟨[], rfl⟩
  | cons x l ih =>
    obtain ⟨y, hy⟩ := h x (List.mem_cons_self ..)
    obtain ⟨r, hr⟩ := ih (fun z hz => h z (List.mem_cons_of_mem _ hz))
    exact ⟨y :: r, by rw [List.mapM_cons, hy, hr]; rfl⟩

theorem mapM_cons_some {α β : Type} {f : α → Option β} {x : α} {l : List α} {r : List β} (h : (x :: l).mapM f = some r) :
    ∃ y r', f x = some y ∧ l.mapM f = some r' ∧ r = y :: r' := by
  rw [List.mapM_cons] at h
  cases hx : f x with
  | none => rw [hx] at h; cases h
  | some y =>
    rw [hx] at h
    cases hl : l.mapM f with
    | none => rw [hl] at h; cases h
    | some r' =>
      rw [hl] at h
      injection h with h
      exact ⟨y, r', rfl, rfl, h.symm⟩

theorem mapM_get {α β : Type} (f : α → Option β) (l : List α) (r : List β) (h : l.mapM f = some r) (i : Nat) : r[i]? = l[i]?.bind f := by
  induction l generalizing r i with
  | nil => cases h; rfl
  | cons x l ih =>
    obtain ⟨y, r', hy, hl, rfl⟩ := mapM_cons_some h
    cases i with
    | zero => simp [hy]
    | succ i => simpa using ih r' hl i

theorem mapM_mem {α β : Type} (f : α → Option β) (l : List α) (r : List β) (h : l.mapM f = some r) (x : α) (hx : x ∈ l) : ∃ y ∈ r, f x = some y := by
  obtain ⟨i, hi, e⟩ := List.getElem_of_mem hx
  have := mapM_get f l r h i
  rw [List.getElem?_eq_getElem hi, e] at this
  cases hf : f x with
  | none =>
    exfalso
    clear hi e this
    induction l generalizing r with
    | nil => cases hx
    | cons z l ih =>
      obtain ⟨y, r', hy, hl, rfl⟩ := mapM_cons_some h
      rcases List.mem_cons.1 hx with rfl | hx
      · rw [hf] at hy; cases hy
      · exact ih r' hl hx
  | some y =>
    rw [Option.bind_some, hf] at this
    exact ⟨y, List.mem_of_getElem? this, rfl⟩

theorem mem_register (l : List T) : ∀ names n, n ∈ register names l ↔ n ∈ names ∨ n ∈ l := by
  induction l with
  | nil => intro names n; simp [register]
  | cons a l ih =>
    intro names n
    unfold register
    by_cases h : a ∈ names
    · rw [if_pos h, ih, List.mem_cons]
      constructor
      · rintro (h | h)
        · exact Or.inl h
        · exact Or.inr (Or.inr h)
      · rintro (h' | rfl | h')
        · exact Or.inl h'
        · exact Or.inl h
        · exact Or.inr h'
    · rw [if_neg h, ih, List.mem_append, List.mem_singleton, List.mem_cons, or_assoc]

theorem idOf_get (names : List T) (n : T) (h : n ∈ names) : names[idOf names n]? = some n := by
  unfold idOf
  have hl : List.idxOf n names < names.length := List.idxOf_lt_length_of_mem h
  rw [List.getElem?_eq_getElem hl]
  simp

theorem notDefault (w : When) (hs : w.Sound) (hne : w ≠ ⟨.all, .all⟩) (n : T) : isDefault ⟨w.text, n⟩ = false := by
  have hd := days_text w.days (by
    intro ds h
    have := hs.2
    rw [h] at this
    exact this.1)
  have hh := hours_text w.hours
  have e : w.text = w.hours.text ++ ' ' :: (w.days.text ++ ' ' :: (txt "*" ++ ' ' :: txt "*")) := by
    simp [When.text, txt]
  have hs' : NoBlank (txt "*") := by intro c hc; revert c; decide
  have hw : words w.text = [w.hours.text, w.days.text, txt "*", txt "*"] := by
    rw [e, words4 _ _ _ _ hh.1 hd.1 hs' hs' hh.2 hd.2 (by decide) (by decide)]
  have h1 : w.text ≠ txt "* * * *" := by
    intro h
    rw [h] at hw
    have e2 : words (txt "* * * *") = [txt "*", txt "*", txt "*", txt "*"] := by decide
    rw [e2] at hw
    simp only [List.cons.injEq, and_true] at hw
    obtain ⟨a, b⟩ := hw
    apply hne
    obtain ⟨ho, d⟩ := w
    have hho : ho = .all := (hours_text_all ho).1 a.symm
    have hda : d = .all := by
      cases d with
      | all => rfl
      | range d0 d1 =>
        have : '-' ∈ txt "*" := by
          have b' : txt "*" = Days.text (.range d0 d1) := b
          rw [b']; simp [Days.text]
        exact absurd this (by decide)
      | list ds => exact absurd b.symm (intercalate_ne ds hs.2.1).2
    rw [hho, hda]
  have h2 : w.text ≠ txt "default" := by
    intro h
    have : ' ' ∈ txt "default" := by rw [← h, e]; simp
    exact absurd this (by decide)
  unfold isDefault
  simp [h1, h2]

/-- The entry of a period in the file. -/
def mk (w : When × T) : Period := ⟨w.1.text, w.2⟩

theorem entries_cons (names : List T) (p : Period) (ps : List Period) : entries names (p :: ps) =
    if isDefault p then entries names ps
    else match periodOf p.text (idOf names p.name), entries names ps with
      | some a, some b => some (a ++ b)
      | _, _ => none := by
  rw [entries]
  rfl

theorem entries_append (names : List T) (a b : List Period) : entries names (a ++ b) =
    match entries names a, entries names b with
    | some x, some y => some (x ++ y)
    | _, _ => none := by
  induction a with
  | nil => simp [entries]; cases entries names b <;> rfl
  | cons p a ih =>
    rw [List.cons_append, entries_cons, entries_cons]
    by_cases h : isDefault p = true
    · rw [if_pos h, if_pos h, ih]
    · rw [if_neg h, if_neg h, ih]
      cases periodOf p.text (idOf names p.name) with
      | none => rfl
      | some x =>
        cases entries names a with
        | none => rfl
        | some y =>
          cases entries names b with
          | none => rfl
          | some z => simp

theorem apart_of_disjoint {p q : Periodical} (hp : p.InWeek) (hq : q.InWeek) (h : ∀ x, 0 ≤ x → x < weekSeconds → ¬ (p.Contains x ∧ q.Contains x)) : Apart p q := by
  unfold Apart
  unfold Periodical.InWeek week at hp hq
  by_cases hc : p.begin_ ≤ q.begin_
  · have := h q.begin_ (by omega) (by unfold weekSeconds; omega)
    unfold Periodical.Contains at this
    omega
  · have := h p.begin_ (by omega) (by unfold weekSeconds; omega)
    unfold Periodical.Contains at this
    omega

/-- The entries of a list of disjoint periods. -/
theorem entries_covers (names : List T) (ws : List (When × T)) (hs : ∀ w ∈ ws, w.1.Sound) (hne : ∀ w ∈ ws, w.1 ≠ ⟨.all, .all⟩) (hd : ws.Pairwise Disjoint) :
    ∃ es, entries names (ws.map mk) = some es ∧ (∀ p ∈ es, p.InWeek) ∧ es.Pairwise Apart ∧
      (∀ p ∈ es, ∃ w ∈ ws, p.rulesId = idOf names w.2 ∧ ∀ x, 0 ≤ x → x < weekSeconds → p.Contains x → w.1.has x) ∧
      ∀ w ∈ ws, ∀ x, 0 ≤ x → x < weekSeconds → w.1.has x → ∃ p ∈ es, p.Contains x ∧ p.rulesId = idOf names w.2 := by
  induction ws with
  | nil => exact ⟨[], rfl, by simp, by simp, by simp, by simp⟩
  | cons w ws ih =>
    have hd' : (∀ b ∈ ws, Disjoint w b) ∧ ws.Pairwise Disjoint := List.pairwise_cons.1 hd
    obtain ⟨es, he, h1, h2, h3, h4⟩ := ih (fun z hz => hs z (List.mem_cons_of_mem _ hz)) (fun z hz => hne z (List.mem_cons_of_mem _ hz)) hd'.2
    obtain ⟨es0, he0, c⟩ := period_covers w.1 (hs w (List.mem_cons_self ..)) (idOf names w.2)
    have hnd := notDefault w.1 (hs w (List.mem_cons_self ..)) (hne w (List.mem_cons_self ..)) w.2
    refine ⟨es0 ++ es, ?_, ?_, ?_, ?_, ?_⟩
    · rw [List.map_cons]
      unfold entries
      rw [if_neg (by rw [show mk w = ⟨w.1.text, w.2⟩ from rfl, hnd]; simp), he]
      show (match periodOf w.1.text (idOf names w.2), some es with
        | some a, some b => some (a ++ b)
        | _, _ => none) = _
      rw [he0]
    · intro p hp
      rcases List.mem_append.1 hp with hp | hp
      · exact c.inWeek p hp
      · exact h1 p hp
    · rw [List.pairwise_append]
      refine ⟨c.apart, h2, fun p hp q hq => ?_⟩
      refine apart_of_disjoint (c.inWeek p hp) (h1 q hq) (fun x x0 x1 hx => ?_)
      obtain ⟨w', hw', _, hc'⟩ := h3 q hq
      exact hd'.1 w' hw' x x0 x1 ⟨(c.exact_ x x0 x1).1 ⟨p, hp, hx.1⟩, hc' x x0 x1 hx.2⟩
    · intro p hp
      rcases List.mem_append.1 hp with hp | hp
      · exact ⟨w, List.mem_cons_self .., c.rules p hp, fun x x0 x1 hx => (c.exact_ x x0 x1).1 ⟨p, hp, hx⟩⟩
      · obtain ⟨w', hw', e, hc⟩ := h3 p hp
        exact ⟨w', List.mem_cons_of_mem _ hw', e, hc⟩
    · intro w' hw' x x0 x1 hx
      rcases List.mem_cons.1 hw' with rfl | hw'
      · obtain ⟨p, hp, hc⟩ := (c.exact_ x x0 x1).2 hx
        exact ⟨p, List.mem_append.2 (Or.inl hp), hc, c.rules p hp⟩
      · obtain ⟨p, hp, hc, e⟩ := h4 w' hw' x x0 x1 hx
        exact ⟨p, List.mem_append.2 (Or.inr hp), hc, e⟩

theorem filter_default (ws : List (When × T)) (hs : ∀ w ∈ ws, w.1.Sound) (hne : ∀ w ∈ ws, w.1 ≠ ⟨.all, .all⟩) : (ws.map mk).filter isDefault = [] := by
  rw [List.filter_eq_nil_iff]
  intro p hp
  obtain ⟨w, hw, rfl⟩ := List.mem_map.1 hp
  rw [show mk w = ⟨w.1.text, w.2⟩ from rfl, notDefault w.1 (hs w hw) (hne w hw)]
  simp

/-- **The calendar is the one written.** For a file whose periods are sound and disjoint, with a default entry, and whose sets of rules can be read, the calendar passes the check of the code,
and at every second of the week exactly one entry applies: it carries the name and the rules of the period which contains this second, of the default entry when there is none.
The one-shot periods carry their dates and their name. -/
theorem calendar_exact (date : T → Option Int) (f : File) (ws1 ws2 : List (When × T)) (dflt : T)
    (hp : f.periodical = some (ws1.map mk ++ ⟨txt "* * * *", dflt⟩ :: ws2.map mk))
    (hs : ∀ w ∈ ws1 ++ ws2, w.1.Sound) (hne : ∀ w ∈ ws1 ++ ws2, w.1 ≠ ⟨.all, .all⟩) (hd : (ws1 ++ ws2).Pairwise Disjoint)
    (ho : ∀ o ∈ f.oneshot.getD [], (∃ t, date (o.b ++ txt ":00") = some t) ∧ (∃ t, date (o.e ++ txt ":00") = some t) ∧ ∃ t, o.desc = some t)
    (hr : ∀ n ∈ dflt :: (ws1 ++ ws2).map (·.2) ++ (f.oneshot.getD []).map (·.name), ∃ rs r, f.sets.lookup n = some rs ∧ rulesOf none rs = some r) :
    ∃ c, calendarOf date f = some c ∧ checkPeriodicals c.periodicals = true ∧
      (∀ x, 0 ≤ x → x < weekSeconds → ∃ l p r, c.periodicals = l ++ p :: r ∧ p.Contains x ∧ (∀ q ∈ l ++ r, ¬ q.Contains x) ∧
        ∀ n, InForce (ws1 ++ ws2) dflt x n → c.names[p.rulesId]? = some n ∧ ∃ rs, f.sets.lookup n = some rs ∧ c.rulesList[p.rulesId]? = rulesOf none rs) ∧
      ∀ o ∈ f.oneshot.getD [], ∃ q ∈ c.oneshots, date (o.b ++ txt ":00") = some q.begin_ ∧ date (o.e ++ txt ":00") = some q.end_ ∧ c.names[q.rulesId]? = some o.name := by
  let ps := ws1.map mk ++ ⟨txt "* * * *", dflt⟩ :: ws2.map mk
  let os := f.oneshot.getD []
  let names := register [] (ps.map (·.name) ++ os.map (·.name))
  have hnames : ∀ n, n ∈ names ↔ n ∈ dflt :: (ws1 ++ ws2).map (·.2) ++ os.map (·.name) := by
    intro n
    show n ∈ register [] (ps.map (·.name) ++ os.map (·.name)) ↔ _
    rw [mem_register]
    simp [ps, mk]
    tauto
  obtain ⟨rl, hrl⟩ := mapM_ok (fun n => (f.sets.lookup n).bind (rulesOf none)) names (by
    intro n hn
    obtain ⟨rs, r, h1, h2⟩ := hr n ((hnames n).1 hn)
    exact ⟨r, by simp [h1, h2]⟩)
  obtain ⟨ol, hol⟩ := mapM_ok (oneshotOf date names) os (by
    intro o hoo
    obtain ⟨⟨a, ha⟩, ⟨b, hb⟩, ⟨c, hc⟩⟩ := ho o hoo
    exact ⟨_, by unfold oneshotOf; rw [ha, hb, hc]⟩)
  obtain ⟨es, he, h1, h2, h3, h4⟩ := entries_covers names (ws1 ++ ws2) hs hne hd
  have hes : entries names ps = some es := by
    rw [List.map_append, entries_append] at he
    show entries names (ws1.map mk ++ ⟨txt "* * * *", dflt⟩ :: ws2.map mk) = _
    rw [entries_append]
    have e : entries names (⟨txt "* * * *", dflt⟩ :: ws2.map mk) = entries names (ws2.map mk) := by
      rw [entries_cons, if_pos (show isDefault ⟨txt "* * * *", dflt⟩ = true from rfl)]
    rw [e]
    exact he
  have hdef : defaultId names ps = some (idOf names dflt) := by
    unfold defaultId
    have e : ps.filter isDefault = [⟨txt "* * * *", dflt⟩] := by
      show (ws1.map mk ++ ⟨txt "* * * *", dflt⟩ :: ws2.map mk).filter isDefault = _
      rw [List.filter_append, filter_default ws1 (fun w hw => hs w (List.mem_append.2 (Or.inl hw))) (fun w hw => hne w (List.mem_append.2 (Or.inl hw))),
        List.filter_cons_of_pos (show isDefault ⟨txt "* * * *", dflt⟩ = true from rfl), filter_default ws2 (fun w hw => hs w (List.mem_append.2 (Or.inr hw))) (fun w hw => hne w (List.mem_append.2 (Or.inr hw)))]
      rfl
    rw [e]
    rfl
  have hcal : calendarOf date f = some ⟨buildPeriodicals es (some (idOf names dflt)), sortOneshots ol, names, rl⟩ := by
    unfold calendarOf
    rw [hp]
    show (match names.mapM (fun n => (f.sets.lookup n).bind (rulesOf none)) with
      | none => none
      | some rl =>
        match entries names ps, os.mapM (oneshotOf date names) with
        | some es, some ol => some (⟨buildPeriodicals es (defaultId names ps), sortOneshots ol, names, rl⟩ : Cal)
        | _, _ => none) = _
    rw [hrl]
    dsimp only
    rw [hes, hol, hdef]
  obtain ⟨t1, t2, t3, t4⟩ := calendar_tiles es (idOf names dflt) h1 h2
  have hget : ∀ n ∈ names, names[idOf names n]? = some n ∧ ∃ rs, f.sets.lookup n = some rs ∧ rl[idOf names n]? = rulesOf none rs := by
    intro n hn
    have hg := idOf_get names n hn
    obtain ⟨rs, r, e1, e2⟩ := hr n ((hnames n).1 hn)
    refine ⟨hg, rs, e1, ?_⟩
    rw [mapM_get _ _ _ hrl, hg]
    simp [e1]
  refine ⟨_, hcal, t1, ?_, ?_⟩
  · intro x x0 x1
    obtain ⟨l, p, r, e, hc, hnc⟩ := t4 x x0 (by unfold weekSeconds at x1; unfold week; omega)
    refine ⟨l, p, r, e, hc, hnc, ?_⟩
    intro n hn
    have key : n ∈ names ∧ p.rulesId = idOf names n := by
      rcases hn with ⟨w, hw, hx⟩ | ⟨hnone, rfl⟩
      · refine ⟨(hnames n).2 ?_, ?_⟩
        · have : n ∈ (ws1 ++ ws2).map (·.2) := List.mem_map.2 ⟨(w, n), hw, rfl⟩
          exact List.mem_append.2 (Or.inl (List.mem_cons_of_mem _ this))
        · obtain ⟨q, hq, hqc, hqi⟩ := h4 (w, n) hw x x0 x1 hx
          have hq' := t2 q hq
          rw [e] at hq'
          by_cases hqp : q = p
          · rw [← hqp]; exact hqi
          · exfalso
            rcases List.mem_append.1 hq' with h | h
            · exact hnc q (List.mem_append.2 (Or.inl h)) hqc
            · rcases List.mem_cons.1 h with h | h
              · exact hqp h
              · exact hnc q (List.mem_append.2 (Or.inr h)) hqc
      · refine ⟨(hnames n).2 (by simp), ?_⟩
        rcases t3 p (by rw [e]; simp) with h | h
        · obtain ⟨w, hw, _, hcw⟩ := h3 p h
          exact absurd (hcw x x0 x1 hc) (hnone w hw)
        · exact h
    rw [key.2]
    exact hget n key.1
  · intro o hoo
    obtain ⟨q, hq, e⟩ := mapM_mem _ _ _ hol o hoo
    obtain ⟨⟨a, ha⟩, ⟨b, hb⟩, ⟨c, hc⟩⟩ := ho o hoo
    unfold oneshotOf at e
    rw [ha, hb, hc] at e
    injection e with e
    refine ⟨q, ?_, ?_⟩
    · unfold sortOneshots
      exact (List.mergeSort_perm _ _).mem_iff.2 hq
    · rw [← e]
      refine ⟨ha, hb, (hget o.name ((hnames _).2 ?_)).1⟩
      exact List.mem_append.2 (Or.inr (List.mem_map.2 ⟨o, hoo, rfl⟩))

/-- A day shift, the week-end, and the nights by default. -/
def week1 : List (When × T) := [(⟨.range 8 0 19 0, .range 0 4⟩, txt "day"), (⟨.all, .range 5 6⟩, txt "weekend")]

/-- The file with `week1`, the nights by default, and a one-shot period. -/
def file1 : File :=
  ⟨[(txt "day", [(txt "*,*,*,john", .list [.int 10, .int (-1), .int (-1)])]), (txt "weekend", []), (txt "night", [(txt "*,*,*,/", .list [.int 50, .int 4, .int 12])])],
    some ((week1.map mk) ++ ⟨txt "* * * *", txt "night"⟩ :: ([] : List (When × T)).map mk), some [⟨txt "a", txt "b", txt "day", some []⟩], none⟩

/-- The hypotheses of `calendar_exact` are met by `file1`. -/
example : ∃ c, calendarOf (fun _ => some 7) file1 = some c ∧ checkPeriodicals c.periodicals = true := by
  obtain ⟨c, h, hc, _⟩ := calendar_exact (fun _ => some 7) file1 week1 [] (txt "night") rfl
    (by
      intro w hw
      simp only [week1, List.append_nil, List.mem_cons, List.not_mem_nil, or_false] at hw
      rcases hw with rfl | rfl <;> simp [When.Sound])
    (by
      intro w hw
      simp only [week1, List.append_nil, List.mem_cons, List.not_mem_nil, or_false] at hw
      rcases hw with rfl | rfl <;> simp)
    (by
      simp only [week1, List.append_nil, List.pairwise_cons, List.mem_singleton, forall_eq, List.not_mem_nil, false_imp_iff, implies_true, List.Pairwise.nil, and_true]
      rintro x x0 x1 ⟨⟨a, _⟩, ⟨b, _⟩⟩
      simp only [Days.has] at a b
      rw [if_pos (by omega)] at a b
      omega)
    (by
      intro o ho
      have : o = ⟨txt "a", txt "b", txt "day", some []⟩ := by simpa [file1] using ho
      subst this
      exact ⟨⟨7, rfl⟩, ⟨7, rfl⟩, ⟨_, rfl⟩⟩)
    (by
      intro n hn
      have : n = txt "night" ∨ n = txt "day" ∨ n = txt "weekend" := by
        simp [week1, file1] at hn
        tauto
      rcases this with rfl | rfl | rfl
      · exact ⟨[(txt "*,*,*,/", .list [.int 50, .int 4, .int 12])], _, by decide, rfl⟩
      · exact ⟨[(txt "*,*,*,john", .list [.int 10, .int (-1), .int (-1)])], _, by decide, rfl⟩
      · exact ⟨[], _, by decide, rfl⟩)
  exact ⟨c, h, hc⟩

/-- **A range of days through Sunday with hours is dropped without a word.** Friday to Monday, from 19:00 to midnight: no entry, though Friday 20:00 is in the period. -/
theorem wrap_violated (id : Nat) : periodOf (txt "19:0-0:0 fri-mon * *") id = some [] ∧
    (When.text ⟨.range 19 0 0 0, .range 4 0⟩ = txt "19:0-0:0 fri-mon * *") ∧ When.has ⟨.range 19 0 0 0, .range 4 0⟩ (4 * 86400 + 20 * 3600) := by
  refine ⟨?_, by decide, ?_⟩
  · have e : words (txt "19:0-0:0 fri-mon * *") = [txt "19:0-0:0", txt "fri-mon", txt "*", txt "*"] := by decide
    have h1 : hours (txt "19:0-0:0") = some (68400, 18000) := by decide
    have h2 : days (txt "19:0-0:0") (txt "fri-mon") 18000 = some ([], 18000) := by decide
    unfold periodOf
    rw [e]
    dsimp only
    rw [if_neg (by decide), h1]
    dsimp only
    rw [h2]
    rfl
  · exact ⟨Or.inl (by decide), by decide, Or.inr (by decide)⟩

/-- **A night is accepted with a negative duration.** -/
theorem night_violated (id : Nat) : periodOf (txt "19:0-8:0 mon * *") id = some [⟨68400, -39600, id⟩] := by
  have e : words (txt "19:0-8:0 mon * *") = [txt "19:0-8:0", txt "mon", txt "*", txt "*"] := by decide
  have h1 : hours (txt "19:0-8:0") = some (68400, -39600) := by decide
  have h2 : days (txt "19:0-8:0") (txt "mon") (-39600) = some ([0], -39600) := by decide
  unfold periodOf
  rw [e]
  dsimp only
  rw [if_neg (by decide), h1]
  dsimp only
  rw [h2]
  dsimp only
  rw [addDays_plain _ _ _ _ (by decide) (by decide)]
  rfl

/-! ## The rules -/

/-- A rule in the file. -/
def ruleJson (r : Rule) : T × Lim := (r.key, .list [.int r.res, .int r.jobs, .int r.hours])

/-- **The rules are the ones written.** A set of rules with integer limits gives the rules with the written fields and limits, the hours in seconds, in the same order. -/
theorem rules_exact (all : Option Int) (rs : List Rule) (h : ∀ r ∈ rs, r.Sound) :
    (rulesOf all (rs.map ruleJson)).bind keyed = some (rs.map (fun r =>
      (⟨String.ofList r.queue, String.ofList r.project, String.ofList r.type, String.ofList r.user⟩, ⟨r.res, r.jobs, 3600 * r.hours⟩))) := by
  have hone : ∀ r : Rule, r.Sound → ruleOf all (ruleJson r) = some ([r.queue, r.project, r.type, r.user], ⟨r.res, r.jobs, 3600 * r.hours⟩) := by
    intro r hr
    have e : split ',' r.key = [r.queue, r.project, r.type, r.user] := by
      unfold Rule.key
      rw [split_cons_sep _ _ _ (fun x hx => hr x (by simp [hx])), split_cons_sep _ _ _ (fun x hx => hr x (by simp [hx])),
        split_cons_sep _ _ _ (fun x hx => hr x (by simp [hx])), split_nil_sep _ _ (fun x hx => hr x (by simp [hx]))]
    show some (split ',' r.key, _) = _
    rw [e]
  induction rs with
  | nil => rfl
  | cons r rs ih =>
    have ih := ih (fun z hz => h z (List.mem_cons_of_mem _ hz))
    cases hl : rulesOf all (rs.map ruleJson) with
    | none => rw [hl] at ih; cases ih
    | some l =>
      rw [hl] at ih
      have e : rulesOf all ((r :: rs).map ruleJson) = some (([r.queue, r.project, r.type, r.user], ⟨r.res, r.jobs, 3600 * r.hours⟩) :: l) := by
        unfold rulesOf at hl ⊢
        rw [List.map_cons, List.mapM_cons, hone r (h r (List.mem_cons_self ..)), hl]
        rfl
      rw [e]
      show keyed (_ :: l) = _
      have ih' : keyed l = _ := ih
      unfold keyed at ih' ⊢
      rw [List.mapM_cons, ih']
      rfl

/-- The hypotheses are met. -/
example : ∀ r ∈ [(⟨txt "*", txt "*", txt "*", txt "john", 10, 4, 12⟩ : Rule)], r.Sound := by
  intro r hr
  rw [List.mem_singleton] at hr
  subst hr
  unfold Rule.Sound
  decide

/-- **The default rules and the job types are loaded**: without periods the calendar is kept, the default rules are those of `"quotas"`, and the job types are added. -/
theorem load_exact (date : T → Option Int) (all : Option Int) (f : File) (st : State) (rs : RuleSet) (r : List (List T × Cnt))
    (hp : f.periodical = none) (ho : f.oneshot = none) (hq : f.sets.lookup (txt "quotas") = some rs) (hr : rulesOf all rs = some r) :
    load date all f st = some ⟨st.calendar, r, st.jobTypes ++ f.jobTypes.getD []⟩ := by
  unfold load
  rw [hp, ho, hq]
  simp [hr]

/-- **With periods**, the calendar is the one of `calendarOf`, and the default rules are still those of `"quotas"`. -/
theorem load_calendar (date : T → Option Int) (all : Option Int) (f : File) (st : State) (rs : RuleSet) (r : List (List T × Cnt)) (c : Cal)
    (hp : f.periodical ≠ none ∨ f.oneshot ≠ none) (hc : calendarOf date f = some c) (hq : f.sets.lookup (txt "quotas") = some rs) (hr : rulesOf all rs = some r) :
    load date all f st = some ⟨some c, r, st.jobTypes ++ f.jobTypes.getD []⟩ := by
  unfold load
  rw [if_pos (by
    rcases hp with h | h
    · exact Or.inl (Option.isSome_iff_ne_none.2 h)
    · exact Or.inr (Option.isSome_iff_ne_none.2 h)), hc, hq]
  simp [hr]

/-- **Without `"quotas"`** the default rules are kept. -/
theorem load_keeps (date : T → Option Int) (all : Option Int) (f : File) (st : State)
    (hp : f.periodical = none) (ho : f.oneshot = none) (hq : f.sets.lookup (txt "quotas") = none) :
    load date all f st = some ⟨st.calendar, st.defaultRules, st.jobTypes ++ f.jobTypes.getD []⟩ := by
  unfold load
  rw [hp, ho, hq]
  simp

/-- **The default entry.** It is written `* * * *` or `default`; with several ones, the last one is used; it is no entry of its own. -/
theorem default_exact (names : List T) (a b : List Period) (n : T) (t : T) (ht : t = txt "* * * *" ∨ t = txt "default") (hb : ∀ p ∈ b, p.text ≠ txt "* * * *" ∧ p.text ≠ txt "default") :
    defaultId names (a ++ ⟨t, n⟩ :: b) = some (names.idxOf n) ∧ entries names (a ++ ⟨t, n⟩ :: b) = entries names (a ++ b) := by
  have h1 : isDefault ⟨t, n⟩ = true := by
    unfold isDefault
    rcases ht with rfl | rfl
    · simp
    · simp
  have h2 : b.filter isDefault = [] := by
    rw [List.filter_eq_nil_iff]
    intro p hp
    unfold isDefault
    simp [(hb p hp).1, (hb p hp).2]
  constructor
  · unfold defaultId idOf
    rw [List.filter_append, List.filter_cons, if_pos h1, h2]
    simp
  · rw [entries_append, entries_append, entries_cons, if_pos h1]

theorem mapM_none {α β : Type} (f : α → Option β) (l : List α) (x : α) (hx : x ∈ l) (h : f x = none) : l.mapM f = none := by
  cases hm : l.mapM f with
  | none => rfl
  | some r =>
    obtain ⟨y, _, hy⟩ := mapM_mem f l r hm x hx
    rw [h] at hy; cases hy

/-- **`ALL` cannot be used in the rules of a period.** Whatever the number of resources, a file with a period whose set of rules has a limit `ALL` stops the program. -/
theorem calendar_all_violated (date : T → Option Int) (all : Option Int) (f : File) (st : State) (ps : List Period) (p : Period) (rs : RuleSet) (k : T) (a b c : Val)
    (hp : f.periodical = some ps) (hm : p ∈ ps) (hs : f.sets.lookup p.name = some rs) (hk : (k, .list [a, b, c]) ∈ rs) (hall : .text (txt "ALL") ∈ [a, b, c]) :
    load date all f st = none := by
  have h0 : alphanum none (.text (txt "ALL")) = none := (plain_exact none 0).2
  have h1 : ruleOf none (k, .list [a, b, c]) = none := by
    show (match alphanum none a, alphanum none b, alphanum none c with
      | some a, some b, some c => some (split ',' k, (⟨a, b, 3600 * c⟩ : Cnt))
      | _, _, _ => none) = none
    simp only [List.mem_cons, List.not_mem_nil, or_false] at hall
    rcases hall with rfl | rfl | rfl
    · rw [h0]
    · rw [h0]; cases alphanum none a <;> rfl
    · rw [h0]; cases alphanum none a <;> cases alphanum none b <;> rfl
  have h2 : rulesOf none rs = none := mapM_none _ _ _ hk h1
  have h3 : calendarOf date f = none := by
    unfold calendarOf
    rw [hp]
    dsimp only
    rw [mapM_none _ _ p.name (by
      rw [mem_register]
      exact Or.inr (List.mem_append.2 (Or.inl (List.mem_map.2 ⟨p, hm, rfl⟩)))) (by simp [hs, h2])]
  unfold load
  rw [if_pos (Or.inl (by rw [hp]; rfl)), h3]
  rfl

/-- The hypotheses are met. -/
example : load (fun _ => none) (some 100) ⟨[(txt "day", [(txt "*,*,*,john", .list [.text (txt "ALL"), .int (-1), .int (-1)])])], some [⟨txt "* * * *", txt "day"⟩], none, none⟩ ⟨none, [], ["*"]⟩ = none :=
  calendar_all_violated _ _ _ _ _ _ _ (txt "*,*,*,john") (.text (txt "ALL")) (.int (-1)) (.int (-1)) rfl (List.mem_cons_self ..) rfl (List.mem_cons_self ..) (List.mem_cons_self ..)

/-- **A blank after a comma disables the rule.** `"*, *, *, john"` is accepted, and applies to no job of any project. -/
theorem blank_violated (all : Option Int) (jt : List String) (j : QJob) (hj : j.project ≠ " *") :
    ∃ rules, (rulesOf all [(txt "*, *, *, john", .list [.int 0, .int 0, .int 0])]).bind keyed = some rules ∧ findApplicable jt rules j = none ∧ ∀ c, check jt rules c j = none := by
  refine ⟨[(⟨"*", " *", " *", " john"⟩, ⟨0, 0, 0⟩)], by rfl, ?_⟩
  have hf : findApplicable jt [(⟨"*", " *", " *", " john"⟩, ⟨0, 0, 0⟩)] j = none := by
    unfold findApplicable
    have hq : ∀ q, getItem ([((⟨"*", " *", " *", " john"⟩ : Key), (⟨0, 0, 0⟩ : Cnt))].map (·.1.queue)) q = some "*" := by
      intro q
      unfold getItem
      by_cases h : q = "*"
      · subst h; rfl
      · rw [if_neg (by simpa using h), if_neg (by decide), if_pos (by decide)]
    rw [hq]
    have hp : getItem (([((⟨"*", " *", " *", " john"⟩ : Key), (⟨0, 0, 0⟩ : Cnt))].filter (fun r => r.1.queue = "*")).map (·.1.project)) j.project = none := by
      show getItem [" *"] j.project = none
      unfold getItem
      rw [if_neg (by simpa using hj), if_neg (by decide), if_neg (by decide)]
    dsimp only
    rw [hp]
  refine ⟨hf, fun c => ?_⟩
  unfold check
  rw [hf]

/-- **A key with another number of fields is accepted by the loading, and stops the first scheduling pass.** -/
theorem fields_violated (all : Option Int) : (∃ r, rulesOf all [(txt "*,*,john", .list [.int 1, .int 1, .int 1])] = some r ∧ keyed r = none) := ⟨_, rfl, rfl⟩

/-- **A period without limits is checked with the default rules.** The set of rules of the period is empty, a job of one resource is refused because of the default limit. -/
theorem empty_set_violated : ∃ d : Rules, (rulesOf none []).bind keyed = some [] ∧
    (rulesOf none [(txt "*,*,*,*", .list [.int 0, .int (-1), .int (-1)])]).bind keyed = some d ∧
    checkSlots ⟨true, d, ["*"], ∅⟩ [⟨[], [], 0⟩] ⟨"default", "p", [], "john"⟩ 1 10 = some (1, 0) := by
  refine ⟨[(⟨"*", "*", "*", "*"⟩, ⟨0, -1, -3600⟩)], rfl, rfl, by decide⟩

/-- **One-shot periods alone**: the calendar has no period, and the search of the rules in force stops the program at every date. -/
theorem oneshot_only_violated (date : T → Option Int) (f : File) (c : Cal) (per win : Int) (origin : Int → Int) (rl : List Rules) (t : Int)
    (hp : f.periodical = none) (hc : calendarOf date f = some c) :
    rulesAt ⟨per, win, c.periodicals, c.oneshots, rl, 0, 0, origin⟩ t = none := by
  have hper : c.periodicals = [] := by
    unfold calendarOf at hc
    rw [hp] at hc
    dsimp only [Option.getD_none] at hc
    split at hc
    · cases hc
    · split at hc
      · rename_i es ol he ho
        have : es = [] := by
          have : entries _ [] = some es := he
          rw [entries] at this
          injection this with this
          exact this.symm
        subst this
        injection hc with hc
        rw [← hc]
        simp [buildPeriodicals, defaultId, sortPeriodicals]
      · cases hc
  rw [hper]
  rfl

end Oar.QuotasFile
