import Verif.QuotasFile
import Verif.ToolsProps
import Mathlib.Tactic.Ring
import Mathlib.Tactic.Linarith

/-!
# C93: the numbers of the file of the quotas
-/

namespace Oar.QuotasFile

open Oar.Tools Oar.Quotas

/-! ## Rounding -/

theorem expo_le (p q : Nat) (hp : p ≠ 0) : q * 2 ^ (expo p q).toNat ≤ p * 2 ^ (-(expo p q)).toNat := by
  unfold expo
  dsimp only
  split
  · assumption
  · have h1 : 2 ^ p.log2 ≤ p := Nat.log2_self_le hp
    have h2 : q < 2 ^ (q.log2 + 1) := Nat.lt_log2_self
    have e : ((p.log2 : Int) - q.log2 - 1).toNat + (q.log2 + 1) = p.log2 + (-((p.log2 : Int) - q.log2 - 1)).toNat := by omega
    calc q * 2 ^ ((p.log2 : Int) - q.log2 - 1).toNat ≤ 2 ^ (q.log2 + 1) * 2 ^ ((p.log2 : Int) - q.log2 - 1).toNat := Nat.mul_le_mul_right _ (Nat.le_of_lt h2)
      _ = 2 ^ p.log2 * 2 ^ (-((p.log2 : Int) - q.log2 - 1)).toNat := by rw [← Nat.pow_add, ← Nat.pow_add, ← e, Nat.add_comm]
      _ ≤ p * 2 ^ (-((p.log2 : Int) - q.log2 - 1)).toNat := Nat.mul_le_mul_right _ h1

theorem roundDiv_err (a b : Nat) (hb : 0 < b) : 2 * (roundDiv a b * b) ≤ 2 * a + b ∧ 2 * a ≤ 2 * (roundDiv a b * b) + b := by
  have h := Nat.div_add_mod a b
  have hc : b * (a / b) = a / b * b := Nat.mul_comm _ _
  have hm := Nat.mod_lt a hb
  unfold roundDiv
  split
  · have : (a / b + 1) * b = a / b * b + b := by ring
    rw [this]
    omega
  · omega

theorem roundDiv_mul (n b : Nat) (hb : 0 < b) : roundDiv (n * b) b = n := by
  unfold roundDiv
  rw [Nat.mul_mod_left, Nat.mul_div_cancel _ hb, if_neg]
  omega

theorem rnd_den (p q : Nat) : 0 < (rnd p q).2 := by
  unfold rnd
  split
  · exact Nat.one_pos
  · exact Nat.pow_pos (by omega)

/-- The float nearest to a fraction `k / 2 ^ j` with at most 53 bits is this fraction. -/
theorem rnd_exact (p q k j : Nat) (hq : 0 < q) (hk : k < 2 ^ 53) (e : p * 2 ^ j = k * q) : (rnd p q).1 * 2 ^ j = k * (rnd p q).2 := by
  by_cases hp : p = 0
  · subst hp
    have : k = 0 := by
      rcases Nat.eq_zero_or_pos k with h | h
      · exact h
      · have := Nat.mul_pos h hq
        omega
    subst this
    simp [rnd]
  · have h1 := expo_le p q hp
    have hE : expo p q + j ≤ 52 := by
      have h2 : q * (2 ^ (expo p q).toNat * 2 ^ j) ≤ q * (k * 2 ^ (-(expo p q)).toNat) := by
        calc q * (2 ^ (expo p q).toNat * 2 ^ j) = (q * 2 ^ (expo p q).toNat) * 2 ^ j := by ring
          _ ≤ (p * 2 ^ (-(expo p q)).toNat) * 2 ^ j := Nat.mul_le_mul_right _ h1
          _ = (p * 2 ^ j) * 2 ^ (-(expo p q)).toNat := by ring
          _ = (k * q) * 2 ^ (-(expo p q)).toNat := by rw [e]
          _ = q * (k * 2 ^ (-(expo p q)).toNat) := by ring
      have h3 := Nat.le_of_mul_le_mul_left h2 hq
      have h4 : 2 ^ ((expo p q).toNat + j) < 2 ^ (53 + (-(expo p q)).toNat) := by
        rw [Nat.pow_add, Nat.pow_add]
        exact Nat.lt_of_le_of_lt h3 (Nat.mul_lt_mul_of_pos_right hk (Nat.pow_pos (by omega)))
      have h5 := (Nat.pow_lt_pow_iff_right (by omega : 1 < 2)).1 h4
      omega
    unfold rnd
    rw [if_neg hp]
    dsimp only
    have e0 : (-(52 - expo p q)).toNat = 0 := by omega
    obtain ⟨i, hi⟩ : ∃ i, (52 - expo p q).toNat = j + i := ⟨(52 - expo p q).toNat - j, by omega⟩
    rw [e0, hi]
    have e1 : p * 2 ^ (j + i) = (k * 2 ^ i) * (q * 2 ^ 0) := by
      rw [Nat.pow_add]
      calc p * (2 ^ j * 2 ^ i) = (p * 2 ^ j) * 2 ^ i := by ring
        _ = (k * q) * 2 ^ i := by rw [e]
        _ = (k * 2 ^ i) * (q * 2 ^ 0) := by ring
    rw [e1, roundDiv_mul _ _ (by simpa using hq)]
    rw [Nat.pow_add]
    ring

/-- The relative error of a rounding is at most `2 ^ -53`. -/
theorem rnd_err (p q : Nat) (hq : 0 < q) : (rnd p q).1 * q * 2 ^ 53 ≤ (2 ^ 53 + 1) * (p * (rnd p q).2) ∧ 2 ^ 53 * (p * (rnd p q).2) ≤ (rnd p q).1 * q * 2 ^ 53 + p * (rnd p q).2 := by
  by_cases hp : p = 0
  · subst hp
    simp [rnd]
  · have h1 := expo_le p q hp
    have hb : 2 ^ 52 * (q * 2 ^ (-(52 - expo p q)).toNat) ≤ p * 2 ^ (52 - expo p q).toNat := by
      obtain ⟨x, hx⟩ : ∃ x, (expo p q).toNat = x := ⟨_, rfl⟩
      obtain ⟨y, hy⟩ : ∃ y, (-(expo p q)).toNat = y := ⟨_, rfl⟩
      obtain ⟨u, hu⟩ : ∃ u, (52 - expo p q).toNat = u := ⟨_, rfl⟩
      obtain ⟨v, hv⟩ : ∃ v, (-(52 - expo p q)).toNat = v := ⟨_, rfl⟩
      rw [hx, hy] at h1
      rw [hu, hv]
      have e : 52 + v + y = x + u := by omega
      have h2 : (2 ^ 52 * (q * 2 ^ v)) * 2 ^ y ≤ (p * 2 ^ u) * 2 ^ y := by
        calc (2 ^ 52 * (q * 2 ^ v)) * 2 ^ y = q * 2 ^ (52 + v + y) := by rw [Nat.pow_add, Nat.pow_add]; ring
          _ = (q * 2 ^ x) * 2 ^ u := by rw [e, Nat.pow_add]; ring
          _ ≤ (p * 2 ^ y) * 2 ^ u := Nat.mul_le_mul_right _ h1
          _ = (p * 2 ^ u) * 2 ^ y := by ring
      exact Nat.le_of_mul_le_mul_right h2 (Nat.pow_pos (by omega))
    unfold rnd
    rw [if_neg hp]
    dsimp only
    generalize (-(52 - expo p q)).toNat = v at *
    generalize (52 - expo p q).toNat = u at *
    obtain ⟨r1, r2⟩ := roundDiv_err (p * 2 ^ u) (q * 2 ^ v) (Nat.mul_pos hq (Nat.pow_pos (by omega)))
    generalize roundDiv (p * 2 ^ u) (q * 2 ^ v) = m at *
    have e : m * 2 ^ v * q = m * (q * 2 ^ v) := by ring
    rw [e]
    generalize m * (q * 2 ^ v) = z at *
    generalize p * 2 ^ u = a at *
    generalize q * 2 ^ v = b at *
    omega

/-! ## Texts of numbers -/

theorem mem_split (c x : Char) (hx : x ≠ c) (t : T) (h : x ∈ t) : ∃ w ∈ split c t, x ∈ w := by
  induction t with
  | nil => cases h
  | cons y t ih =>
    unfold split
    by_cases hy : y = c
    · rw [if_pos hy]
      rcases List.mem_cons.1 h with rfl | h
      · exact absurd hy hx
      · obtain ⟨w, hw, hxw⟩ := ih h
        exact ⟨w, List.mem_cons_of_mem _ hw, hxw⟩
    · rw [if_neg hy]
      cases hs : split c t with
      | nil =>
        rw [hs] at ih
        rcases List.mem_cons.1 h with rfl | h
        · exact ⟨[x], by simp, by simp⟩
        · obtain ⟨w, hw, _⟩ := ih h; cases hw
      | cons w ws =>
        rw [hs] at ih
        rcases List.mem_cons.1 h with rfl | h
        · exact ⟨x :: w, by simp, by simp⟩
        · obtain ⟨w', hw, hxw⟩ := ih h
          rcases List.mem_cons.1 hw with rfl | hw
          · exact ⟨y :: w', by simp, by simp [hxw]⟩
          · exact ⟨w', by simp [hw], hxw⟩

theorem pyNat_bad (x : Char) (hx : x.isDigit = false) (t : T) (h : x ∈ t) : pyNat t = none := by
  unfold pyNat
  rw [if_neg]
  rintro ⟨_, ha⟩
  rw [List.all_eq_true] at ha
  rw [ha x h] at hx
  cases hx

theorem pyUFloat_bad (neg : Bool) (x : Char) (hx : x.isDigit = false) (hx' : x ≠ '.') (t : T) (h : x ∈ t) : pyUFloat neg t = none := by
  obtain ⟨w, hw, hxw⟩ := mem_split '.' x hx' t h
  unfold pyUFloat
  split
  · rename_i a he
    rw [he, List.mem_singleton] at hw
    subst hw
    rw [pyNat_bad x hx _ hxw]; rfl
  · rename_i a b he
    rw [he] at hw
    simp only [List.mem_cons, List.not_mem_nil, or_false] at hw
    have : x ∈ a ++ b := by
      rcases hw with rfl | rfl
      · exact List.mem_append.2 (Or.inl hxw)
      · exact List.mem_append.2 (Or.inr hxw)
    rw [pyNat_bad x hx _ this]; rfl
  · rfl

theorem mem_dropWhile_blank (x : Char) (hx : blank x = false) (t : T) (h : x ∈ t) : x ∈ t.dropWhile blank := by
  induction t with
  | nil => cases h
  | cons y t ih =>
    rw [List.dropWhile_cons]
    by_cases hy : blank y = true
    · rw [if_pos hy]
      rcases List.mem_cons.1 h with rfl | h
      · rw [hx] at hy; cases hy
      · exact ih h
    · rw [if_neg hy]; exact h

theorem pyFloat_bad (x : Char) (hx : x.isDigit = false) (hd : x ≠ '.') (hm : x ≠ '-') (hp : x ≠ '+') (hb : blank x = false) (t : T) (h : x ∈ t) : pyFloat t = none := by
  have hs : x ∈ strip t := by
    unfold strip
    rw [List.mem_reverse]
    apply mem_dropWhile_blank x hb
    rw [List.mem_reverse]
    exact mem_dropWhile_blank x hb t h
  unfold pyFloat
  split
  · rename_i r he
    rw [he] at hs
    rcases List.mem_cons.1 hs with hh | hh
    · exact absurd hh hm
    · exact pyUFloat_bad _ x hx hd _ hh
  · rename_i r he
    rw [he] at hs
    rcases List.mem_cons.1 hs with hh | hh
    · exact absurd hh hp
    · exact pyUFloat_bad _ x hx hd _ hh
  · exact pyUFloat_bad _ x hx hd _ hs

/-- **Any number of bits.** A share of the resources, whatever the decimal: the loaded limit is at most one unit away from the written one (up to `2 ^ 51` resources). -/
theorem share_bounds (d : Dec) (n : Nat) (hd : d.neg = false) (hn : n < 2 ^ 53) (hb : d.m * n ≤ 2 ^ 51 * 10 ^ d.places) :
    ∃ r : Nat, trunc (mulF (toF d) (ofInt n)) = r ∧ r * 10 ^ d.places ≤ d.m * n + 10 ^ d.places ∧ d.m * n < (r + 2) * 10 ^ d.places := by
  have ht : 0 < 10 ^ d.places := Nat.pow_pos (by omega)
  obtain ⟨u1, u2⟩ := rnd_err d.m (10 ^ d.places) ht
  have hB := rnd_den d.m (10 ^ d.places)
  have hny : (rnd n 1).1 = n * (rnd n 1).2 := by
    have := rnd_exact n 1 n 0 Nat.one_pos hn (by simp)
    simpa using this
  have hY := rnd_den n 1
  refine ⟨(mulF (toF d) (ofInt n)).num / (mulF (toF d) (ofInt n)).den, ?_, ?_⟩
  · unfold trunc
    rw [if_neg]
    simp [mulF, toF, ofInt, hd]
  · have hnum : (mulF (toF d) (ofInt n)).num = (rnd ((rnd d.m (10 ^ d.places)).1 * (n * (rnd n 1).2)) ((rnd d.m (10 ^ d.places)).2 * (rnd n 1).2)).1 := by
      simp only [mulF, toF, ofInt, Int.natAbs_natCast]
      rw [hny]
    have hden : (mulF (toF d) (ofInt n)).den = (rnd ((rnd d.m (10 ^ d.places)).1 * (n * (rnd n 1).2)) ((rnd d.m (10 ^ d.places)).2 * (rnd n 1).2)).2 := by
      simp only [mulF, toF, ofInt, Int.natAbs_natCast]
      rw [hny]
    rw [hnum, hden]
    generalize (rnd d.m (10 ^ d.places)).1 = A at *
    generalize (rnd d.m (10 ^ d.places)).2 = B at *
    generalize (rnd n 1).2 = Y at *
    have hq : 0 < B * Y := Nat.mul_pos hB hY
    obtain ⟨v1, v2⟩ := rnd_err (A * (n * Y)) (B * Y) hq
    have hD := rnd_den (A * (n * Y)) (B * Y)
    generalize (rnd (A * (n * Y)) (B * Y)).1 = N at *
    generalize (rnd (A * (n * Y)) (B * Y)).2 = D at *
    generalize 10 ^ d.places = t at *
    generalize d.m = m at *
    clear hnum hden hny hd hn
    have w1 : N * B * 2 ^ 53 ≤ (2 ^ 53 + 1) * (A * n * D) := by
      have : (N * B * 2 ^ 53) * Y ≤ ((2 ^ 53 + 1) * (A * n * D)) * Y := by
        calc (N * B * 2 ^ 53) * Y = N * (B * Y) * 2 ^ 53 := by ring
          _ ≤ (2 ^ 53 + 1) * (A * (n * Y) * D) := v1
          _ = ((2 ^ 53 + 1) * (A * n * D)) * Y := by ring
      exact Nat.le_of_mul_le_mul_right this hY
    have w2 : (2 ^ 53 - 1) * (A * n * D) ≤ N * B * 2 ^ 53 := by
      have e1 : A * (n * Y) * D = A * n * D * Y := by ring
      have e2 : N * (B * Y) * 2 ^ 53 = N * B * 2 ^ 53 * Y := by ring
      rw [e1, e2] at v2
      have : ((2 ^ 53 - 1) * (A * n * D)) * Y ≤ (N * B * 2 ^ 53) * Y := by
        have e3 : ((2 ^ 53 - 1) * (A * n * D)) * Y = (2 ^ 53 - 1) * (A * n * D * Y) := by ring
        rw [e3]
        generalize A * n * D * Y = z at *
        omega
      exact Nat.le_of_mul_le_mul_right this hY
    have w3 : (2 ^ 53 - 1) * (m * B) ≤ A * t * 2 ^ 53 := by
      generalize m * B = z at *
      omega
    have x1 : N * t * 2 ^ 106 ≤ (2 ^ 53 + 1) ^ 2 * (m * n * D) := by
      have : (N * t * 2 ^ 106) * B ≤ ((2 ^ 53 + 1) ^ 2 * (m * n * D)) * B := by
        calc (N * t * 2 ^ 106) * B = (N * B * 2 ^ 53) * (t * 2 ^ 53) := by ring
          _ ≤ ((2 ^ 53 + 1) * (A * n * D)) * (t * 2 ^ 53) := Nat.mul_le_mul_right _ w1
          _ = (A * t * 2 ^ 53) * ((2 ^ 53 + 1) * (n * D)) := by ring
          _ ≤ ((2 ^ 53 + 1) * (m * B)) * ((2 ^ 53 + 1) * (n * D)) := Nat.mul_le_mul_right _ u1
          _ = ((2 ^ 53 + 1) ^ 2 * (m * n * D)) * B := by ring
      exact Nat.le_of_mul_le_mul_right this hB
    have x2 : (2 ^ 53 - 1) ^ 2 * (m * n * D) ≤ N * t * 2 ^ 106 := by
      have : ((2 ^ 53 - 1) ^ 2 * (m * n * D)) * B ≤ (N * t * 2 ^ 106) * B := by
        calc ((2 ^ 53 - 1) ^ 2 * (m * n * D)) * B = ((2 ^ 53 - 1) * (m * B)) * ((2 ^ 53 - 1) * (n * D)) := by ring
          _ ≤ (A * t * 2 ^ 53) * ((2 ^ 53 - 1) * (n * D)) := Nat.mul_le_mul_right _ w3
          _ = ((2 ^ 53 - 1) * (A * n * D)) * (t * 2 ^ 53) := by ring
          _ ≤ (N * B * 2 ^ 53) * (t * 2 ^ 53) := Nat.mul_le_mul_right _ w2
          _ = (N * t * 2 ^ 106) * B := by ring
      exact Nat.le_of_mul_le_mul_right this hB
    have hbD : m * n * D ≤ 2 ^ 51 * (t * D) := by
      calc m * n * D ≤ (2 ^ 51 * t) * D := Nat.mul_le_mul_right _ hb
        _ = 2 ^ 51 * (t * D) := by ring
    have hdm := Nat.div_add_mod N D
    have hlt := Nat.mod_lt N hD
    generalize hR : N / D = R at *
    have hRD : R * D ≤ N := by rw [Nat.mul_comm]; omega
    have hRN : N < (R + 1) * D := by
      have : (R + 1) * D = D * R + D := by ring
      omega
    constructor
    · have y1 : (R * t) * D ≤ (m * n + t) * D := by
        have e1 : (R * t) * D = (R * D) * t := by ring
        have e2 : (R * D) * t ≤ N * t := Nat.mul_le_mul_right _ hRD
        have e3 : (m * n + t) * D = m * n * D + t * D := by ring
        rw [e1, e3]
        refine Nat.le_trans e2 ?_
        generalize m * n * D = z at *
        generalize t * D = y at *
        generalize N * t = x at *
        omega
      exact Nat.le_of_mul_le_mul_right y1 hD
    · have y1 : (m * n) * D < ((R + 2) * t) * D := by
        have e1 : ((R + 2) * t) * D = ((R + 1) * D) * t + t * D := by ring
        have e2 : N * t ≤ ((R + 1) * D) * t := Nat.mul_le_mul_right _ (Nat.le_of_lt hRN)
        have e3 : 0 < t * D := Nat.mul_pos ht hD
        rw [e1]
        generalize ((R + 1) * D) * t = k at *
        generalize m * n * D = z at *
        generalize t * D = y at *
        generalize N * t = x at *
        omega
      exact Nat.lt_of_mul_lt_mul_right y1

/-- The hypotheses are met: 0.29 of 100 resources. -/
example : (⟨false, 29, 2⟩ : Dec).m * 100 ≤ 2 ^ 51 * 10 ^ 2 ∧ trunc (mulF (toF ⟨false, 29, 2⟩) (ofInt (100 : Nat))) = 28 := by decide +kernel

theorem share_text (c : T) (d : Dec) (n : Int) (hc : pyFloat c = some d) (hs : ∀ x ∈ c, x ≠ '*') :
    alphanum (some n) (.text (c ++ txt "*ALL")) = some (trunc (mulF (toF d) (ofInt n))) := by
  have hm : '*' ∈ c ++ txt "*ALL" := List.mem_append.2 (Or.inr (by decide))
  have hf : pyFloat (c ++ txt "*ALL") = none := pyFloat_bad '*' (by decide) (by decide) (by decide) (by decide) (by decide) _ hm
  have e : c ++ txt "*ALL" = c ++ '*' :: txt "ALL" := rfl
  unfold alphanum
  dsimp only
  rw [hf]
  dsimp only
  rw [if_pos hm, e, split_cons_sep _ _ _ hs, split_nil_sep _ _ (by decide)]
  dsimp only
  rw [hc]
  dsimp only
  rw [if_pos rfl]
  rfl

theorem div_cross (a b k p : Nat) (hb : 0 < b) (hp : 0 < p) (e : a * p = k * b) : a / b = k / p := by
  rw [← Nat.mul_div_mul_right a b hp, e, Nat.mul_comm b p, Nat.mul_div_mul_right k p hb]

/-- **A number with a short binary form is exact.** A JSON number or a text which writes `± k / 2 ^ j` (an integer, a half, a quarter, ...) is loaded as this number without its fraction. -/
theorem number_exact (all : Option Int) (d : Dec) (k j : Nat) (hk : k < 2 ^ 53) (e : d.m * 2 ^ j = k * 10 ^ d.places) :
    alphanum all (.dec d) = some (if d.neg then - ((k / 2 ^ j : Nat) : Int) else ((k / 2 ^ j : Nat) : Int)) ∧
    ∀ t, pyFloat t = some d → alphanum all (.text t) = some (if d.neg then - ((k / 2 ^ j : Nat) : Int) else ((k / 2 ^ j : Nat) : Int)) := by
  have h := rnd_exact d.m (10 ^ d.places) k j (Nat.pow_pos (by omega)) hk e
  have hd := div_cross _ _ k (2 ^ j) (rnd_den d.m (10 ^ d.places)) (Nat.pow_pos (by omega)) h
  have ht : trunc (toF d) = if d.neg then - ((k / 2 ^ j : Nat) : Int) else ((k / 2 ^ j : Nat) : Int) := by
    unfold trunc toF
    dsimp only
    rw [hd]
  refine ⟨?_, ?_⟩
  · unfold alphanum
    dsimp only
    rw [ht]
  · intro t hp
    unfold alphanum
    dsimp only
    rw [hp]
    dsimp only
    rw [ht]

/-- The hypotheses are met: `12.5`, written as a text, is 25 / 2. -/
example : pyFloat (txt "12.5") = some ⟨false, 125, 1⟩ ∧ 125 * 2 ^ 1 = 25 * 10 ^ 1 ∧ alphanum none (.text (txt "12.5")) = some 12 := by decide +kernel

/-- **A share with a short binary form is exact.** `c*ALL`, where `c` writes `k / 2 ^ j`, is `k n / 2 ^ j` resources of `n`, without the fraction. -/
theorem share_exact (c : T) (d : Dec) (n k j : Nat) (hc : pyFloat c = some d) (hs : ∀ x ∈ c, x ≠ '*') (hd : d.neg = false)
    (hk : k < 2 ^ 53) (hn : n < 2 ^ 53) (hkn : k * n < 2 ^ 53) (e : d.m * 2 ^ j = k * 10 ^ d.places) :
    alphanum (some (n : Int)) (.text (c ++ txt "*ALL")) = some ((k * n / 2 ^ j : Nat) : Int) := by
  rw [share_text c d n hc hs]
  have hx := rnd_exact d.m (10 ^ d.places) k j (Nat.pow_pos (by omega)) hk e
  have hy := rnd_exact n 1 n 0 Nat.one_pos hn (by simp)
  have hB := rnd_den d.m (10 ^ d.places)
  have hY := rnd_den n 1
  have hz := rnd_exact ((rnd d.m (10 ^ d.places)).1 * (rnd n 1).1) ((rnd d.m (10 ^ d.places)).2 * (rnd n 1).2) (k * n) j (Nat.mul_pos hB hY) hkn (by
    rw [Nat.pow_zero, Nat.mul_one] at hy
    rw [hy]
    calc (rnd d.m (10 ^ d.places)).1 * (n * (rnd n 1).2) * 2 ^ j = ((rnd d.m (10 ^ d.places)).1 * 2 ^ j) * (n * (rnd n 1).2) := by ring
      _ = (k * (rnd d.m (10 ^ d.places)).2) * (n * (rnd n 1).2) := by rw [hx]
      _ = k * n * ((rnd d.m (10 ^ d.places)).2 * (rnd n 1).2) := by ring)
  have hdv := div_cross _ _ (k * n) (2 ^ j) (rnd_den _ _) (Nat.pow_pos (by omega)) hz
  congr 1
  unfold trunc
  have hneg : (mulF (toF d) (ofInt (n : Int))).neg = false := by
    simp [mulF, toF, ofInt, hd]
  rw [hneg]
  simp only [mulF, toF, ofInt, Int.natAbs_natCast]
  rw [hdv]
  rfl

/-- The hypotheses are met: `0.5*ALL` of 101 resources. -/
example : pyFloat (txt "0.5") = some ⟨false, 5, 1⟩ ∧ 5 * 2 ^ 1 = 1 * 10 ^ 1 ∧ alphanum (some 101) (.text (txt "0.5*ALL")) = some 50 := by decide +kernel

/-- A halfway case is rounded to the even neighbour. -/
theorem roundDiv_even (a b : Nat) (h : 2 * (a % b) = b) : roundDiv a b % 2 = 0 := by
  unfold roundDiv
  by_cases h1 : (a / b) % 2 = 1
  · rw [if_pos (Or.inr ⟨h, h1⟩)]; omega
  · rw [if_neg (by omega)]; omega

/-- **A product of two numbers is exact.** `c*v`, where `c` writes `± k / 2 ^ j` and `v` writes `± l / 2 ^ i`, is the product, signs included, without its fraction. -/
theorem product_exact (all : Option Int) (c v : T) (d w : Dec) (k j l i : Nat) (hc : pyFloat c = some d) (hv : pyFloat v = some w) (hs : ∀ x ∈ c ++ v, x ≠ '*')
    (hk : k < 2 ^ 53) (hl : l < 2 ^ 53) (hkl : k * l < 2 ^ 53) (ec : d.m * 2 ^ j = k * 10 ^ d.places) (ev : w.m * 2 ^ i = l * 10 ^ w.places) :
    alphanum all (.text (c ++ '*' :: v)) = some (if d.neg = w.neg then ((k * l / 2 ^ (j + i) : Nat) : Int) else - ((k * l / 2 ^ (j + i) : Nat) : Int)) := by
  have hm : '*' ∈ c ++ '*' :: v := List.mem_append.2 (Or.inr (List.mem_cons_self ..))
  have hf : pyFloat (c ++ '*' :: v) = none := pyFloat_bad '*' (by decide) (by decide) (by decide) (by decide) (by decide) _ hm
  have hall : v ≠ txt "ALL" := by
    rintro rfl
    have : pyFloat (txt "ALL") = none := by decide
    rw [this] at hv; cases hv
  unfold alphanum
  dsimp only
  rw [hf]
  dsimp only
  rw [if_pos hm, split_cons_sep _ _ _ (fun x hx => hs x (List.mem_append.2 (Or.inl hx))), split_nil_sep _ _ (fun x hx => hs x (List.mem_append.2 (Or.inr hx)))]
  dsimp only
  rw [hc]
  dsimp only
  rw [if_neg hall, hv, Option.map_some]
  congr 1
  have hx := rnd_exact d.m (10 ^ d.places) k j (Nat.pow_pos (by omega)) hk ec
  have hy := rnd_exact w.m (10 ^ w.places) l i (Nat.pow_pos (by omega)) hl ev
  have hB := rnd_den d.m (10 ^ d.places)
  have hY := rnd_den w.m (10 ^ w.places)
  have hz := rnd_exact ((rnd d.m (10 ^ d.places)).1 * (rnd w.m (10 ^ w.places)).1) ((rnd d.m (10 ^ d.places)).2 * (rnd w.m (10 ^ w.places)).2) (k * l) (j + i) (Nat.mul_pos hB hY) hkl (by
    calc (rnd d.m (10 ^ d.places)).1 * (rnd w.m (10 ^ w.places)).1 * 2 ^ (j + i) = ((rnd d.m (10 ^ d.places)).1 * 2 ^ j) * ((rnd w.m (10 ^ w.places)).1 * 2 ^ i) := by ring
      _ = (k * (rnd d.m (10 ^ d.places)).2) * (l * (rnd w.m (10 ^ w.places)).2) := by rw [hx, hy]
      _ = k * l * ((rnd d.m (10 ^ d.places)).2 * (rnd w.m (10 ^ w.places)).2) := by ring)
  have hdv := div_cross _ _ (k * l) (2 ^ (j + i)) (rnd_den _ _) (Nat.pow_pos (by omega)) hz
  unfold trunc
  simp only [mulF, toF]
  rw [hdv]
  by_cases hh : d.neg = w.neg
  · simp [hh]
  · simp [hh]

/-- The hypotheses are met: `-2.5*-3` and `2.5*-3`. -/
example : pyFloat (txt "-2.5") = some ⟨true, 25, 1⟩ ∧ 25 * 2 ^ 1 = 5 * 10 ^ 1 ∧ pyFloat (txt "-3") = some ⟨true, 3, 0⟩ ∧
    alphanum none (.text (txt "-2.5*-3")) = some 7 ∧ alphanum none (.text (txt "2.5*-3")) = some (-7) := by decide +kernel

/-- **Integers and `ALL` are exact.** -/
theorem plain_exact (all : Option Int) (n : Int) : alphanum all (.int n) = some n ∧ alphanum all (.text (txt "ALL")) = all := by
  refine ⟨rfl, ?_⟩
  have hf : pyFloat (txt "ALL") = none := by decide
  unfold alphanum
  dsimp only
  rw [hf]
  dsimp only
  rw [if_neg (by decide), if_pos rfl]

theorem digits_point (a : Nat) (b : T) (hb : ∀ x ∈ b, x.isDigit = true) : pyFloat (digits a ++ '.' :: b) = some ⟨false, val (digits a ++ b), b.length⟩ := by
  have hne := (digits_spec a).1
  have hall : ∀ x ∈ digits a, x.isDigit = true := by
    have := (digits_spec a).2.1
    rw [List.all_eq_true] at this
    exact this
  have hk : ∀ x : Char, x.isDigit = true → blank x = false ∧ x ≠ '-' ∧ x ≠ '+' ∧ x ≠ '.' := by
    intro x hx
    have h1 : ∀ k : Char, k.isDigit = false → x ≠ k := by
      rintro k hk rfl
      rw [hx] at hk; cases hk
    refine ⟨?_, h1 _ (by decide), h1 _ (by decide), h1 _ (by decide)⟩
    unfold blank
    simp [h1 ' ' (by decide), h1 '\t' (by decide), h1 '\n' (by decide), h1 '\r' (by decide), h1 '\x0b' (by decide), h1 '\x0c' (by decide)]
  have hstrip : strip (digits a ++ '.' :: b) = digits a ++ '.' :: b := by
    have hnb : ∀ x ∈ digits a ++ '.' :: b, blank x = false := by
      intro x hx
      rcases List.mem_append.1 hx with h | h
      · exact (hk x (hall x h)).1
      · rcases List.mem_cons.1 h with rfl | h
        · decide
        · exact (hk x (hb x h)).1
    have hdw : ∀ l : T, (∀ x ∈ l, blank x = false) → l.dropWhile blank = l := by
      intro l hl
      cases l with
      | nil => rfl
      | cons y l => rw [List.dropWhile_cons, if_neg (by rw [hl y (by simp)]; simp)]
    unfold strip
    rw [hdw _ hnb, hdw _ (by intro x hx; exact hnb x (List.mem_reverse.1 hx)), List.reverse_reverse]
  have hp : pyUFloat false (digits a ++ '.' :: b) = some ⟨false, val (digits a ++ b), b.length⟩ := by
    unfold pyUFloat
    rw [split_cons_sep _ _ _ (fun x hx => (hk x (hall x hx)).2.2.2), split_nil_sep _ _ (fun x hx => (hk x (hb x hx)).2.2.2)]
    dsimp only
    unfold pyNat
    rw [if_pos]
    · rfl
    · refine ⟨by simp [hne], ?_⟩
      rw [List.all_eq_true]
      intro x hx
      rcases List.mem_append.1 hx with h | h
      · exact hall x h
      · exact hb x h
  unfold pyFloat
  rw [hstrip]
  split
  · rename_i r he
    exfalso
    cases hd : digits a with
    | nil => exact hne hd
    | cons y l =>
      rw [hd, List.cons_append] at he
      injection he with h1 _
      exact (hk y (hall y (by rw [hd]; simp))).2.1 h1
  · rename_i r he
    exfalso
    cases hd : digits a with
    | nil => exact hne hd
    | cons y l =>
      rw [hd, List.cons_append] at he
      injection he with h1 _
      exact (hk y (hall y (by rw [hd]; simp))).2.2.1 h1
  · exact hp

/-- **A share can lose a resource.** `0.29*ALL` of 100 resources is loaded as 28. -/
theorem share_violated : alphanum (some 100) (.text (txt "0.29*ALL")) = some 28 ∧ 29 * 100 = 29 * 10 ^ 2 := by decide +kernel

/-- **Fractions of hours are lost before they are converted to seconds.** Half an hour of one resource is loaded as nothing at all, 1.75 hours as one hour. -/
theorem hours_violated : ruleOf none (txt "*,*,*,john", .list [.int (-1), .int (-1), .dec ⟨false, 5, 1⟩]) = some ([txt "*", txt "*", txt "*", txt "john"], ⟨-1, -1, 0⟩) ∧
    ruleOf none (txt "*,*,*,john", .list [.int (-1), .int (-1), .dec ⟨false, 175, 2⟩]) = some ([txt "*", txt "*", txt "*", txt "john"], ⟨-1, -1, 3600⟩) := by decide +kernel

/-- **The share written after `ALL` is refused**, and so is the documented single integer; a single text is read character by character. -/
theorem forms_violated (all : Option Int) (k : T) (n : Int) : alphanum all (.text (txt "ALL*0.5")) = none ∧ rulesOf all [(k, .one (.int n))] = none ∧
    ruleOf all (k, .one (.text (txt "120"))) = some (split ',' k, ⟨1, 2, 0⟩) := by
  have h1 : pyFloat (txt "ALL*0.5") = none := by decide
  have h2 : split '*' (txt "ALL*0.5") = [txt "ALL", txt "0.5"] := by decide
  have h3 : pyFloat (txt "ALL") = none := by decide
  have a1 : alphanum all (.text ['1']) = some 1 := by
    have : pyFloat ['1'] = some ⟨false, 1, 0⟩ := by decide
    unfold alphanum; dsimp only; rw [this]; dsimp only; decide +kernel
  have a2 : alphanum all (.text ['2']) = some 2 := by
    have : pyFloat ['2'] = some ⟨false, 2, 0⟩ := by decide
    unfold alphanum; dsimp only; rw [this]; dsimp only; decide +kernel
  have a0 : alphanum all (.text ['0']) = some 0 := by
    have : pyFloat ['0'] = some ⟨false, 0, 0⟩ := by decide
    unfold alphanum; dsimp only; rw [this]; dsimp only; decide +kernel
  refine ⟨?_, rfl, ?_⟩
  · unfold alphanum
    dsimp only
    rw [h1]
    dsimp only
    rw [if_pos (by decide), h2]
    dsimp only
    rw [h3]
  · have e : (Lim.one (.text (txt "120"))).items = [.text ['1'], .text ['2'], .text ['0']] := by decide
    unfold ruleOf
    rw [e]
    dsimp only
    rw [a1, a2, a0]
    rfl

end Oar.QuotasFile
