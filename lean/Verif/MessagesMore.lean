import Verif.MessagesProps

/-!
# C119: the corrections of the messages and the karma read in them
-/

namespace Oar.Messages

open Oar.Tools Oar.Messages.Spec

/-! ## `re.sub` -/

theorem sub_skip (m : List Char → Option Nat) (new : List Char) : ∀ (k : Nat) (l : List Char), sub m new k l = sub m new 0 (l.drop k)
  | 0, _ => rfl
  | k + 1, [] => by rw [List.drop_nil]; rfl
  | k + 1, c :: l => by
    rw [List.drop_succ_cons, ← sub_skip m new k l]
    rfl

/-- The part of a text where no match begins is kept. -/
theorem sub_pre (m : List Char → Option Nat) (new : List Char) (l : List Char) : ∀ p : List Char, (∀ a b, p = a ++ b → b ≠ [] → m (b ++ l) = none) →
    sub m new 0 (p ++ l) = p ++ sub m new 0 l
  | [], _ => rfl
  | c :: p, h => by
    have h0 := h [] (c :: p) rfl (by simp)
    rw [List.cons_append] at h0 ⊢
    rw [sub, h0]
    dsimp only
    rw [sub_pre m new l p (fun a b e hb => h (c :: a) b (by rw [e]; rfl) hb)]
    rfl

theorem sub_none (m : List Char → Option Nat) (new l : List Char) (h : ∀ a b, l = a ++ b → b ≠ [] → m b = none) : sub m new 0 l = l := by
  have := sub_pre m new [] l (fun a b e hb => by rw [List.append_nil]; exact h a b e hb)
  rw [List.append_nil] at this
  rw [this]
  simp [sub]

/-- A match at the beginning is replaced. -/
theorem sub_match (m : List Char → Option Nat) (new p l : List Char) (hp : p ≠ []) (h : m (p ++ l) = some p.length) :
    sub m new 0 (p ++ l) = new ++ sub m new 0 l := by
  cases p with
  | nil => exact absurd rfl hp
  | cons c p =>
    rw [List.cons_append] at h ⊢
    rw [sub, h]
    dsimp only
    rw [sub_skip, List.length_cons, Nat.add_sub_cancel, List.drop_left]

/-! ## Matches -/

theorem matchR_head {c : Char} {l : List Char} (h : c ≠ 'R') : matchR (c :: l) = none := by
  unfold matchR
  split
  · rename_i heq
    exact absurd (List.cons.inj heq).1 h
  · rfl

theorem matchR_second {l : List Char} (h : l.head? ≠ some '=') : matchR ('R' :: l) = none := by
  unfold matchR
  split
  · rename_i heq
    rw [(List.cons.inj heq).2] at h
    exact absurd rfl h
  · rfl

theorem matchW_head {c : Char} {l : List Char} (h : c ≠ 'W') : matchW (c :: l) = none := by
  unfold matchW
  split
  · rename_i heq
    exact absurd (List.cons.inj heq).1 h
  · rfl

theorem digitsThen_some {k : List Char → Option Nat} {l : List Char} {n : Nat} (h : digitsThen k l = some n) : ∃ t j, (∀ c ∈ t, c ∈ l) ∧ k t = some j := by
  unfold digitsThen at h
  split at h
  · simp at h
  · cases hk : k (l.drop (digitsAt l)) with
    | none => rw [hk] at h; simp at h
    | some j => exact ⟨_, j, fun c hc => List.mem_of_mem_drop hc, hk⟩

theorem colonThen_some {k : List Char → Option Nat} {l : List Char} {n : Nat} (h : colonThen k l = some n) : ':' ∈ l := by
  unfold colonThen at h
  split at h
  · simp
  · simp at h

theorem matchW_colon {l : List Char} {n : Nat} (h : matchW l = some n) : ':' ∈ l := by
  unfold matchW at h
  split at h
  · rename_i t
    cases hm : matchHms t with
    | none => rw [hm] at h; simp at h
    | some j =>
      obtain ⟨u, i, hu, hk⟩ := digitsThen_some hm
      exact List.mem_cons_of_mem _ (List.mem_cons_of_mem _ (hu _ (colonThen_some hk)))
  · simp at h

/-- A text without colon is not changed by the reduction of a walltime. -/
theorem shorter_without (l : List Char) (w : Int) (h : Without ':' l) : shorter l w = l := by
  unfold shorter
  refine sub_none _ _ _ (fun a b e _ => ?_)
  cases hm : matchW b with
  | none => rfl
  | some n => exact absurd rfl (h ':' (by rw [e]; exact List.mem_append_right _ (matchW_colon hm)))

/-! ## Characters of the messages -/

theorem without_append {x : Char} {a b : List Char} : Without x (a ++ b) ↔ Without x a ∧ Without x b := by
  unfold Without
  constructor
  · intro h
    exact ⟨fun c hc => h c (List.mem_append_left _ hc), fun c hc => h c (List.mem_append_right _ hc)⟩
  · rintro ⟨h1, h2⟩ c hc
    rcases List.mem_append.1 hc with h | h
    · exact h1 c h
    · exact h2 c h

theorem without_joined {x : Char} {sep : List Char} (hx : Without x sep) : ∀ fs : List (List Char), (∀ f ∈ fs, Without x f) → Without x (joined sep fs)
  | [], _ => by simp [joined, Without]
  | [a], h => h a (by simp)
  | a :: b :: l, h => by
    unfold joined
    exact without_append.2 ⟨without_append.2 ⟨h a (by simp), hx⟩, without_joined hx (b :: l) (fun t ht => h t (List.mem_cons_of_mem _ ht))⟩

theorem without_str {x : Char} (hx : x.isDigit = false) (hm : x ≠ '-') (n : Int) : Without x (str n) := by
  intro c hc
  rcases str_chars n c hc with h | rfl
  · rintro rfl
    rw [h] at hx
    exact absurd hx (by decide)
  · exact fun h => hm h.symm

theorem without_fields {x : Char} (r : Row) (p : Place) (hx : x ∉ txt "R=WJPIQN-,") (hd : x.isDigit = false) (hq : Without x r.queue) (hn : Without x r.name) :
    ∀ f ∈ fields r p, Without x f := by
  have hx' : x ≠ 'R' ∧ x ≠ '=' ∧ x ≠ 'W' ∧ x ≠ 'J' ∧ x ≠ 'P' ∧ x ≠ 'I' ∧ x ≠ 'Q' ∧ x ≠ 'N' ∧ x ≠ '-' ∧ x ≠ ',' := by
    simpa [txt] using hx
  obtain ⟨x1, x2, x3, x4, x5, x6, x7, x8, x9, -⟩ := hx'
  intro f hf
  unfold fields at hf
  simp only [List.mem_append] at hf
  have e2 : ∀ a b : Char, x ≠ a → x ≠ b → Without x [a, b] := by
    intro a b ha hb c hc
    simp only [List.mem_cons, List.not_mem_nil, or_false] at hc
    rcases hc with rfl | rfl
    · exact ha.symm
    · exact hb.symm
  rcases hf with (((hf | hf) | hf) | hf) | hf
  · simp only [List.mem_singleton] at hf
    subst hf
    exact without_append.2 ⟨e2 _ _ x1 x2, without_str hd x9 _⟩
  · cases hw : p.wall with
    | none => rw [hw] at hf; simp at hf
    | some w =>
      rw [hw] at hf
      simp only [List.mem_singleton] at hf
      subst hf
      exact without_append.2 ⟨e2 _ _ x3 x2, without_str hd x9 _⟩
  · simp only [List.mem_singleton] at hf
    subst hf
    split
    · exact without_append.2 ⟨e2 'J' '=' x4 x2, fun c hc => by simp only [List.mem_singleton] at hc; subst hc; exact x5.symm⟩
    · exact without_append.2 ⟨e2 'J' '=' x4 x2, fun c hc => by simp only [List.mem_singleton] at hc; subst hc; exact x6.symm⟩
  · simp only [List.mem_singleton] at hf
    subst hf
    exact without_append.2 ⟨e2 _ _ x7 x2, hq⟩
  · split at hf
    · simp at hf
    · simp only [List.mem_singleton] at hf
      subst hf
      exact without_append.2 ⟨e2 _ _ x8 x2, hn⟩

theorem without_body {x : Char} (r : Row) (p : Place) (hx : x ∉ txt "R=WJPIQN-,") (hd : x.isDigit = false) (hq : Without x r.queue) (hn : Without x r.name) :
    Without x (joined (txt ",") (fields r p)) := by
  refine without_joined ?_ _ (without_fields r p hx hd hq hn)
  have : x ≠ ',' := by
    rintro rfl
    exact hx (by decide)
  intro c hc
  rw [show txt "," = [','] from rfl, List.mem_singleton] at hc
  subst hc
  exact this.symm

/-! ## The reductions -/

/-- C119 (violated). The reduction of the walltime of a reservation launched late is not written in its message: for every reservation, every history and every duration, the message
still tells the walltime it was accepted with. -/
theorem late_violated (wall sec : Int) (r : Row) (evs : List Ev) (st : Int) (nb : Nat) (w : Int) (hs : st > -1) (hq : Plain r.queue) (hn : Plain r.name)
    (cq : Without ':' r.queue) (cn : Without ':' r.name) :
    (after wall sec r (evs ++ [.accepted st nb, .late w])).message = (after wall sec r (evs ++ [.accepted st nb])).message ∧
    (value 'W' (after wall sec r (evs ++ [.accepted st nb, .late w])).message).bind pyInt = some (wall + sec) := by
  have h1 : (after wall sec r (evs ++ [.accepted st nb])).message = message r ⟨r.id, st, nb, some (wall + sec), none⟩ := after_place wall sec r evs _ _ rfl hs
  have h2 : (after wall sec r (evs ++ [.accepted st nb, .late w])).message = shorter (after wall sec r (evs ++ [.accepted st nb])).message w := by
    unfold after
    rw [show evs ++ [Ev.accepted st nb, Ev.late w] = (evs ++ [Ev.accepted st nb]) ++ [Ev.late w] by simp, List.foldl_append]
    rfl
  have h3 : (after wall sec r (evs ++ [.accepted st nb, .late w])).message = (after wall sec r (evs ++ [.accepted st nb])).message := by
    rw [h2, h1]
    refine shorter_without _ _ ?_
    unfold message karmaPart
    rw [List.append_nil]
    exact without_body r _ (by decide) (by decide) cq cn
  exact ⟨h3, by rw [h3, h1]; exact (round_partial r ⟨r.id, st, nb, some (wall + sec), none⟩ hq hn).2.1⟩

theorem digitsAt_digits (n : Nat) (l : List Char) (hl : ∀ c, l.head? = some c → c.isDigit = false) : digitsAt (digits n ++ l) = (digits n).length := by
  unfold digitsAt
  rw [takeWhile_all l (fun c hc => List.all_eq_true.1 (digits_spec n).2.1 c hc)]
  cases l with
  | nil => simp
  | cons c l => rw [List.takeWhile_cons, if_neg (by rw [hl c rfl]; decide), List.append_nil]

theorem digits_length (n : Nat) : (digits n).length ≠ 0 := by
  intro h
  exact (digits_spec n).1 (List.length_eq_zero_iff.1 h)

theorem digitsThen_digits (k : List Char → Option Nat) (n : Nat) (l : List Char) (j : Nat) (hl : ∀ c, l.head? = some c → c.isDigit = false) (hk : k l = some j) :
    digitsThen k (digits n ++ l) = some ((digits n).length + j) := by
  unfold digitsThen
  rw [digitsAt_digits n l hl, if_neg (digits_length n), List.drop_left, hk]
  rfl

theorem sql_digits (w : Int) (h : 0 ≤ w) : ∃ a b c, durationToSql w = digits a ++ ':' :: (digits b ++ ':' :: digits c) := by
  obtain ⟨h1, -, h3, -, h5⟩ := duration_hms w
  have h0 : 0 ≤ (durationToHms w).1 := by
    unfold durationToHms
    dsimp only
    omega
  have e : ∀ n : Int, 0 ≤ n → str n = digits n.natAbs := by
    intro n hn
    unfold str
    rw [if_neg (by omega)]
  exact ⟨_, _, _, by unfold durationToSql hmsToSql; rw [e _ h0, e _ h1, e _ h3]⟩

theorem matchW_sql (w : Int) (h : 0 ≤ w) (l : List Char) (hl : ∀ c, l.head? = some c → c.isDigit = false) :
    matchW (txt "W=" ++ durationToSql w ++ l) = some (txt "W=" ++ durationToSql w).length := by
  obtain ⟨a, b, c, e⟩ := sql_digits w h
  rw [e]
  have e3 : digitsThen (fun _ => some 0) (digits c ++ l) = some ((digits c).length + 0) := digitsThen_digits _ c l 0 hl rfl
  have e2 : colonThen (digitsThen (fun _ => some 0)) (':' :: (digits c ++ l)) = some (1 + ((digits c).length + 0)) := by
    show (digitsThen (fun _ => some 0) (digits c ++ l)).map (fun n => 1 + n) = _
    rw [e3]
    rfl
  have col : ∀ t : List Char, ∀ d, (':' :: t).head? = some d → d.isDigit = false := by
    intro t d hd
    simp only [List.head?_cons, Option.some.injEq] at hd
    subst hd
    decide
  have e4 := digitsThen_digits _ b _ _ (col _) e2
  have e5 : colonThen (digitsThen (colonThen (digitsThen (fun _ => some 0)))) (':' :: (digits b ++ ':' :: (digits c ++ l))) =
      some (1 + ((digits b).length + (1 + ((digits c).length + 0)))) := by
    show (digitsThen (colonThen (digitsThen (fun _ => some 0))) (digits b ++ ':' :: (digits c ++ l))).map (fun n => 1 + n) = _
    rw [e4]
    rfl
  have e6 : matchHms (digits a ++ ':' :: (digits b ++ ':' :: (digits c ++ l))) = _ := digitsThen_digits _ a _ _ (col _) e5
  have e7 : txt "W=" ++ (digits a ++ ':' :: (digits b ++ ':' :: digits c)) ++ l = 'W' :: '=' :: (digits a ++ ':' :: (digits b ++ ':' :: (digits c ++ l))) := by
    simp [txt]
  rw [e7]
  show (matchHms (digits a ++ ':' :: (digits b ++ ':' :: (digits c ++ l)))).map (fun n => 2 + n) = _
  rw [e6]
  simp [txt]
  omega

theorem submitted_cons (s : Sub) : ∃ t, submitted s = txt "R=" ++ str s.nb ++ txt "," ++ (txt "W=" ++ durationToSql s.wall ++ (',' :: t)) ∧
    (∀ w, submitted { s with wall := w } = txt "R=" ++ str s.nb ++ txt "," ++ (txt "W=" ++ durationToSql w ++ (',' :: t))) ∧
    (∀ x, x ∉ txt "RJ=BINQPT|," → (∀ n, s.name = some n → Without x n) → Without x s.queue → Without x s.project → (∀ y ∈ s.types, Without x y) → Without x t) := by
  refine ⟨joined (txt ",") ((txt "J=" ++ mode s) :: (nameF s ++ queueF s ++ projectF s ++ typesF s)), ?_, ?_, ?_⟩
  · rw [submitted_fields]
    unfold subFields
    simp [joined, txt]
  · intro w
    rw [submitted_fields]
    unfold subFields
    simp [joined, txt, nameF, queueF, projectF, typesF, mode]
  · intro x hx hn hq hp ht
    have hx' : x ≠ 'R' ∧ x ≠ 'J' ∧ x ≠ '=' ∧ x ≠ 'B' ∧ x ≠ 'I' ∧ x ≠ 'N' ∧ x ≠ 'Q' ∧ x ≠ 'P' ∧ x ≠ 'T' ∧ x ≠ '|' ∧ x ≠ ',' := by
      simpa [txt] using hx
    obtain ⟨x1, x2, x3, x4, x5, x6, x7, x8, x9, x10, x11⟩ := hx'
    have e1 : ∀ a : Char, x ≠ a → Without x [a] := by
      intro a ha c hc
      rw [List.mem_singleton] at hc
      subst hc
      exact ha.symm
    have e2 : ∀ a b : Char, x ≠ a → x ≠ b → Without x [a, b] := fun a b ha hb => without_append.2 ⟨e1 a ha, e1 b hb⟩
    refine without_joined (e1 _ x11) _ ?_
    intro f hf
    simp only [List.mem_cons, List.mem_append] at hf
    rcases hf with rfl | ((hf | hf) | hf) | hf
    · refine without_append.2 ⟨e2 'J' '=' x2 x3, ?_⟩
      unfold mode
      split
      · exact e1 _ x1
      · split
        · exact e1 _ x5
        · exact e1 _ x4
    · unfold nameF at hf
      cases h : s.name with
      | none => rw [h] at hf; simp at hf
      | some n =>
        rw [h] at hf
        dsimp only at hf
        split at hf
        · simp at hf
        · rw [List.mem_singleton] at hf
          subst hf
          exact without_append.2 ⟨e2 'N' '=' x6 x3, hn n h⟩
    · unfold queueF at hf
      split at hf
      · rw [List.mem_singleton] at hf
        subst hf
        exact without_append.2 ⟨e2 'Q' '=' x7 x3, hq⟩
      · simp at hf
    · unfold projectF at hf
      split at hf
      · rw [List.mem_singleton] at hf
        subst hf
        exact without_append.2 ⟨e2 'P' '=' x8 x3, hp⟩
      · simp at hf
    · unfold typesF at hf
      split at hf
      · simp at hf
      · rw [List.mem_singleton] at hf
        subst hf
        exact without_append.2 ⟨e2 'T' '=' x9 x3, without_joined (e1 _ x10) _ ht⟩

/-- **C119.** The correction of the walltime is exact on the messages of the submissions (their texts have no colon): the new message is the one of a submission with the new walltime. -/
theorem late_submitted_partial (s : Sub) (w : Int) (hw : 0 ≤ s.wall) (hn : ∀ n, s.name = some n → Without ':' n) (hq : Without ':' s.queue)
    (hp : Without ':' s.project) (ht : ∀ y ∈ s.types, Without ':' y) : shorter (submitted s) w = submitted { s with wall := w } := by
  obtain ⟨t, h1, h2, h3⟩ := submitted_cons s
  have h3 := h3 ':' (by decide) hn hq hp ht
  rw [h1, h2 w]
  unfold shorter
  rw [sub_pre]
  · rw [sub_match]
    · congr 2
      refine sub_none _ _ _ (fun a b e _ => ?_)
      cases hm : matchW b with
      | none => rfl
      | some n =>
        have : ':' ∈ ',' :: t := by rw [e]; exact List.mem_append_right _ (matchW_colon hm)
        rcases List.mem_cons.1 this with h | h
        · exact absurd h (by decide)
        · exact absurd rfl (h3 ':' h)
    · simp [txt]
    · refine matchW_sql s.wall hw _ ?_
      intro c hc
      simp only [List.head?_cons, Option.some.injEq] at hc
      subst hc
      decide
  · intro a b e hb
    cases b with
    | nil => exact absurd rfl hb
    | cons c b =>
      refine matchW_head ?_
      have hc : c ∈ txt "R=" ++ str s.nb ++ txt "," := by rw [e]; simp
      rintro rfl
      rcases List.mem_append.1 hc with hc | hc
      · rcases List.mem_append.1 hc with hc | hc
        · exact absurd hc (by decide)
        · exact absurd rfl (without_str (x := 'W') (by decide) (by decide) _ 'W' hc)
      · exact absurd hc (by decide)

/-! ## The number of resources -/

/-- No `R=` in a text. -/
def noRE : List Char → Bool
  | [] => true
  | c :: l => !(c == 'R' && l.head? == some '=') && noRE l

theorem noRE_append : ∀ (a b : List Char), noRE a = true → noRE b = true → b.head? ≠ some '=' → noRE (a ++ b) = true
  | [], _, _, h, _ => h
  | [c], b, h1, h2, h3 => by
    show noRE (c :: b) = true
    unfold noRE
    simp [h2, h3]
  | c :: d :: a, b, h1, h2, h3 => by
    rw [noRE, Bool.and_eq_true] at h1
    show noRE (c :: (d :: a ++ b)) = true
    rw [noRE, Bool.and_eq_true]
    exact ⟨h1.1, noRE_append (d :: a) b h1.2 h2 h3⟩

theorem noRE_without : ∀ l : List Char, Without '=' l → noRE l = true
  | [], _ => rfl
  | c :: l, h => by
    rw [noRE, noRE_without l (fun d hd => h d (List.mem_cons_of_mem _ hd))]
    have : l.head? ≠ some '=' := by
      cases l with
      | nil => simp
      | cons d l =>
        simp only [List.head?_cons, ne_eq, Option.some.injEq]
        exact h d (by simp)
    simp [this]

theorem noRE_cons {c : Char} {l : List Char} (hc : c ≠ 'R') (h : noRE l = true) : noRE (c :: l) = true := by
  rw [noRE, h]
  simp [hc]

theorem noRE_suffix : ∀ (a b : List Char), noRE (a ++ b) = true → noRE b = true
  | [], _, h => h
  | c :: a, b, h => by
    rw [List.cons_append, noRE, Bool.and_eq_true] at h
    exact noRE_suffix a b h.2

theorem fewer_noRE (l : List Char) (n : Nat) (h : noRE l = true) : fewer l n = l := by
  unfold fewer
  refine sub_none _ _ _ (fun a b e hb => ?_)
  rw [e] at h
  have h := noRE_suffix a b h
  cases b with
  | nil => exact absurd rfl hb
  | cons c b =>
    by_cases hc : c = 'R'
    · subst hc
      refine matchR_second ?_
      intro hh
      rw [noRE, Bool.and_eq_true] at h
      simp [hh] at h
    · exact matchR_head hc

theorem noRE_joined : ∀ fs : List (List Char), (∀ f ∈ fs, noRE f = true) → noRE (joined (txt ",") fs) = true
  | [], _ => rfl
  | [a], h => h a (by simp)
  | a :: b :: l, h => by
    unfold joined
    rw [List.append_assoc]
    refine noRE_append _ _ (h a (by simp)) ?_ (by simp [txt])
    exact noRE_cons (by decide) (noRE_joined (b :: l) (fun t ht => h t (List.mem_cons_of_mem _ ht)))

theorem message_cons (r : Row) (p : Place) : ∃ t, message r p = txt "R=" ++ str p.nb ++ (',' :: t) ∧ (∀ n, message r { p with nb := n } = txt "R=" ++ str n ++ (',' :: t)) ∧
    (Without '=' r.queue → Without '=' r.name → (∀ k, p.karma = some k → Without '=' k) → noRE t = true) := by
  refine ⟨joined (txt ",") ((fields r p).drop 1) ++ karmaPart p, ?_, ?_, ?_⟩
  · unfold message fields
    cases p.wall <;> simp [joined, txt]
  · intro n
    unfold message fields
    cases p.wall <;> simp [joined, txt, karmaPart]
  · intro hq hn hk
    have hs : ∀ n : Int, Without '=' (str n) := fun n => without_str (by decide) (by decide) n
    refine noRE_append _ _ (noRE_joined _ ?_) ?_ ?_
    · intro f hf
      have e : (fields r p).drop 1 = (match p.wall with | none => [] | some w => [txt "W=" ++ str w]) ++ ([if r.passive then txt "J=P" else txt "J=I"] ++
          ([txt "Q=" ++ r.queue] ++ (if r.name = [] then [] else [txt "N=" ++ r.name]))) := by
        unfold fields
        cases p.wall <;> simp
      rw [e] at hf
      simp only [List.mem_append, List.mem_singleton] at hf
      rcases hf with hf | rfl | rfl | hf
      · cases hw : p.wall with
        | none => rw [hw] at hf; simp at hf
        | some w =>
          rw [hw] at hf
          rw [List.mem_singleton] at hf
          subst hf
          exact noRE_cons (by decide) (noRE_cons (by decide) (noRE_without _ (hs _)))
      · split <;> decide
      · exact noRE_cons (by decide) (noRE_cons (by decide) (noRE_without _ hq))
      · split at hf
        · simp at hf
        · rw [List.mem_singleton] at hf
          subst hf
          exact noRE_cons (by decide) (noRE_cons (by decide) (noRE_without _ hn))
    · unfold karmaPart
      cases hkk : p.karma with
      | none => rfl
      | some k =>
        refine noRE_append _ _ (noRE_append _ _ (by decide) (noRE_without _ (hk k hkk)) ?_) (by decide) (by decide)
        cases k with
        | nil => simp
        | cons c k =>
          have := hk _ hkk c (by simp)
          simpa using this
    · unfold karmaPart
      cases p.karma with
      | none => simp
      | some k => simp [txt]

/-- **C119.** When a reservation loses resources its message tells the number that remains, and the rest of the message does not change (for a queue, a name and a karma without `=`). -/
theorem lost_partial (r : Row) (p : Place) (n : Nat) (hq : Without '=' r.queue) (hn : Without '=' r.name) (hk : ∀ k, p.karma = some k → Without '=' k) :
    fewer (message r p) n = message r { p with nb := n } := by
  obtain ⟨t, h1, h2, h3⟩ := message_cons r p
  have h3 := h3 hq hn hk
  rw [h1, h2 n]
  have e := fewer_noRE (',' :: t) n (noRE_cons (by decide) h3)
  unfold fewer at e ⊢
  rw [sub_match, e]
  · simp [txt]
  · rw [show (txt "R=" ++ str p.nb) ++ (',' :: t) = 'R' :: '=' :: (str p.nb ++ (',' :: t)) by simp [txt]]
    show (if digitsAt (str p.nb ++ (',' :: t)) = 0 then none else some (2 + digitsAt (str p.nb ++ (',' :: t)))) = _
    rw [str_nat, digitsAt_digits, if_neg (digits_length _)]
    · simp [txt]
      omega
    · intro c hc
      simp only [List.head?_cons, Option.some.injEq] at hc
      subst hc
      decide

/-! ## The karma -/

/-- A number as `1.25`. -/
def Decimal (k : List Char) : Prop := ∃ a b : List Char, k = a ++ '.' :: b ∧ a ≠ [] ∧ b ≠ [] ∧ a.all Char.isDigit = true ∧ b.all Char.isDigit = true

theorem karmaOf_append : ∀ (a b v : List Char), karmaOf b = some v → karmaOf (a ++ b) = some v
  | [], _, _, h => h
  | c :: a, b, v, h => by
    rw [List.cons_append, karmaOf, karmaOf_append a b v h]
    rfl

theorem karmaAt_head {c : Char} {l : List Char} (h : c ≠ 'K') : karmaAt (c :: l) = none := by
  unfold karmaAt
  split
  · rename_i heq
    exact absurd (List.cons.inj heq).1 h
  · rfl

theorem karmaOf_without : ∀ l : List Char, Without 'K' l → karmaOf l = none
  | [], _ => rfl
  | c :: l, h => by
    rw [karmaOf, karmaOf_without l (fun d hd => h d (List.mem_cons_of_mem _ hd)), karmaAt_head (h c (by simp))]
    rfl

theorem mentions_without : ∀ l : List Char, Without 'K' l → mentions l = false
  | [], _ => rfl
  | c :: l, h => by
    rw [mentions, mentions_without l (fun d hd => h d (List.mem_cons_of_mem _ hd)), Bool.or_false]
    have : 'K' ≠ c := fun e => h c (by simp) e.symm
    simp [txt, List.isPrefixOf, this]

theorem mentions_append : ∀ (a b : List Char), mentions b = true → mentions (a ++ b) = true
  | [], _, h => h
  | c :: a, b, h => by
    rw [List.cons_append, mentions, mentions_append a b h, Bool.or_true]

theorem decimalAt_decimal (a b l : List Char) (ha : a ≠ []) (hb : b ≠ []) (da : a.all Char.isDigit = true) (db : b.all Char.isDigit = true)
    (hl : ∀ c, l.head? = some c → c.isDigit = false) : decimalAt (a ++ '.' :: b ++ l) = some (a ++ '.' :: b) := by
  have e1 : (a ++ '.' :: (b ++ l)).takeWhile Char.isDigit = a := by
    rw [takeWhile_all _ (fun c hc => List.all_eq_true.1 da c hc)]
    rw [List.takeWhile_cons, if_neg (by decide), List.append_nil]
  have e2 : ∀ (x y : List Char), x.all Char.isDigit = true → (∀ c, y.head? = some c → c.isDigit = false) → (x ++ y).dropWhile Char.isDigit = y := by
    intro x y hx hy
    induction x with
    | nil =>
      cases y with
      | nil => rfl
      | cons c y => rw [List.nil_append, List.dropWhile_cons, if_neg (by rw [hy c rfl]; decide)]
    | cons c x ih =>
      rw [List.all_cons, Bool.and_eq_true] at hx
      rw [List.cons_append, List.dropWhile_cons, if_pos hx.1]
      exact ih hx.2
  have e3 : (a ++ '.' :: (b ++ l)).dropWhile Char.isDigit = '.' :: (b ++ l) := by
    refine e2 _ _ da ?_
    intro c hc
    simp only [List.head?_cons, Option.some.injEq] at hc
    subst hc
    decide
  have e4 : (b ++ l).takeWhile Char.isDigit = b := by
    rw [takeWhile_all _ (fun c hc => List.all_eq_true.1 db c hc)]
    cases l with
    | nil => simp
    | cons c l => rw [List.takeWhile_cons, if_neg (by rw [hl c rfl]; decide), List.append_nil]
  rw [List.append_assoc, List.cons_append]
  unfold decimalAt
  rw [e1, e3]
  cases a with
  | nil => exact absurd rfl ha
  | cons c a =>
    show (if (b ++ l).takeWhile Char.isDigit = [] then none else some ((c :: a) ++ '.' :: (b ++ l).takeWhile Char.isDigit)) = _
    rw [e4, if_neg hb]

theorem digit_not {c x : Char} (h : c.isDigit = true) (hx : x.isDigit = false) : c ≠ x := by
  rintro rfl
  rw [h] at hx
  exact absurd hx (by decide)

theorem without_decimal {k : List Char} (h : Decimal k) : Without 'K' k := by
  obtain ⟨a, b, rfl, -, -, ha, hb⟩ := h
  refine without_append.2 ⟨fun c hc => digit_not (List.all_eq_true.1 ha c hc) (by decide), fun c hc => ?_⟩
  rcases List.mem_cons.1 hc with rfl | hc
  · decide
  · exact digit_not (List.all_eq_true.1 hb c hc) (by decide)

/-- **C119.** A karma as `1.25` written by a round is read back, whatever the name and the queue of the job. -/
theorem karma_read_partial (r : Row) (p : Place) (k : List Char) (hp : p.karma = some k) (hk : Decimal k) : karmaOf (message r p) = some k ∧ mentions (message r p) = true := by
  have e : message r p = (joined (txt ",") (fields r p) ++ txt " (") ++ ('K' :: (txt "arma=" ++ k ++ txt ")")) := by
    unfold message karmaPart
    rw [hp]
    simp [txt]
  rw [e]
  constructor
  · refine karmaOf_append _ _ _ ?_
    rw [karmaOf, karmaOf_without _ (without_append.2 ⟨without_append.2 ⟨by decide, without_decimal hk⟩, by decide⟩)]
    show karmaAt ('K' :: (txt "arma=" ++ k ++ txt ")")) = some k
    rw [show 'K' :: (txt "arma=" ++ k ++ txt ")") = 'K' :: 'a' :: 'r' :: 'm' :: 'a' :: '=' :: (k ++ txt ")") by simp [txt]]
    show decimalAt ((k ++ txt ")").dropWhile blank) = some k
    obtain ⟨a, b, rfl, ha, hb, da, db⟩ := hk
    have : ((a ++ '.' :: b) ++ txt ")").dropWhile blank = (a ++ '.' :: b) ++ txt ")" := by
      cases a with
      | nil => exact absurd rfl ha
      | cons c a =>
        rw [List.all_cons, Bool.and_eq_true] at da
        have hbl : blank c = false := by
          unfold blank
          have h1 := digit_not da.1 (show (' ').isDigit = false by decide)
          have h2 := digit_not da.1 (show ('\t').isDigit = false by decide)
          have h3 := digit_not da.1 (show ('\n').isDigit = false by decide)
          have h4 := digit_not da.1 (show ('\r').isDigit = false by decide)
          simp [h1, h2, h3, h4]
        simp only [List.cons_append, List.dropWhile_cons, hbl]
        simp
    rw [this]
    refine decimalAt_decimal a b _ ha hb da db ?_
    intro c hc
    simp [txt] at hc
    subst hc
    decide
  · exact mentions_append _ _ (by rw [mentions]; simp [txt, List.isPrefixOf])

/-- C119 (violated). A negative karma, which is the one of a user who consumed less than its share, is never read, for every job. -/
theorem negative_violated (r : Row) (p : Place) (t : List Char) (hp : p.karma = some ('-' :: t)) (ht : Without 'K' t) (hq : Without 'K' r.queue) (hn : Without 'K' r.name) :
    karmaOf (message r p) = none := by
  have e : message r p = (joined (txt ",") (fields r p) ++ txt " (") ++ ('K' :: (txt "arma=" ++ ('-' :: t) ++ txt ")")) := by
    unfold message karmaPart
    rw [hp]
    simp [txt]
  rw [e]
  have h1 : karmaOf ('K' :: (txt "arma=" ++ ('-' :: t) ++ txt ")")) = none := by
    rw [karmaOf, karmaOf_without _ (without_append.2 ⟨without_append.2 ⟨by decide, fun c hc => ?_⟩, by decide⟩)]
    · rfl
    · rcases List.mem_cons.1 hc with rfl | hc
      · decide
      · exact ht c hc
  have h2 : ∀ a b : List Char, Without 'K' a → karmaOf b = none → karmaOf (a ++ b) = none := by
    intro a b ha hb
    induction a with
    | nil => exact hb
    | cons c a ih =>
      rw [List.cons_append, karmaOf, ih (fun d hd => ha d (List.mem_cons_of_mem _ hd)), karmaAt_head (ha c (by simp))]
      rfl
  exact h2 _ _ (without_append.2 ⟨without_body r p (by decide) (by decide) hq hn, by decide⟩) h1

theorem latest_spec : ∀ l : List Row, (latest l = none ↔ l = []) ∧ ∀ r, latest l = some r → r ∈ l ∧ ∀ q ∈ l, q.start ≤ r.start
  | [] => by simp [latest]
  | a :: l => by
    obtain ⟨h1, h2⟩ := latest_spec l
    unfold latest
    cases h : latest l with
    | none =>
      have := h1.1 h
      subst this
      simp
    | some q =>
      obtain ⟨h3, h4⟩ := h2 q h
      dsimp only
      by_cases hc : q.start > a.start
      · rw [if_pos hc]
        refine ⟨by simp, fun r hr => ?_⟩
        obtain rfl := Option.some.inj hr
        refine ⟨List.mem_cons_of_mem _ h3, fun x hx => ?_⟩
        rcases List.mem_cons.1 hx with rfl | hx
        · omega
        · exact h4 x hx
      · rw [if_neg hc]
        refine ⟨by simp, fun r hr => ?_⟩
        obtain rfl := Option.some.inj hr
        refine ⟨by simp, fun x hx => ?_⟩
        rcases List.mem_cons.1 hx with rfl | hx
        · omega
        · have := h4 x hx
          omega

/-- **C119.** The message used for the karma of a user in a project is the one of the last started of its jobs of this project, started before the date, whose message has a karma. -/
theorem last_karma_exact (rows : List Row) (user project : List Char) (date : Int) :
    (lastKarma rows user project date = [] ∧ ∀ r ∈ rows, r.user = user → r.project = project → r.start < date → mentions r.message = false) ∨
    ∃ r ∈ rows, r.user = user ∧ r.project = project ∧ r.start < date ∧ mentions r.message = true ∧ lastKarma rows user project date = r.message ∧
      ∀ q ∈ rows, q.user = user → q.project = project → q.start < date → mentions q.message = true → q.start ≤ r.start := by
  unfold lastKarma
  generalize hl : rows.filter (fun r => r.user = user ∧ mentions r.message = true ∧ r.project = project ∧ r.start < date) = l
  have hm : ∀ r, r ∈ l ↔ r ∈ rows ∧ r.user = user ∧ mentions r.message = true ∧ r.project = project ∧ r.start < date := by
    intro r
    rw [← hl, List.mem_filter]
    simp
  obtain ⟨h1, h2⟩ := latest_spec l
  cases h : latest l with
  | none =>
    left
    refine ⟨rfl, fun r hr hu hp hd => ?_⟩
    cases hme : mentions r.message with
    | false => rfl
    | true =>
      have := (hm r).2 ⟨hr, hu, hme, hp, hd⟩
      rw [h1.1 h] at this
      simp at this
  | some r =>
    right
    obtain ⟨h3, h4⟩ := h2 r h
    obtain ⟨a, b, c, d, e⟩ := (hm r).1 h3
    exact ⟨r, a, b, d, e, c, rfl, fun q hq hu hp hd hme => h4 q ((hm q).2 ⟨hq, hu, hme, hp, hd⟩)⟩

/-- C119 (violated). The karma printed is never the one of a job that has run, for every table where each started job has been seen by a round since (no `K` in the names and the
queues): it is the one of a job that has no start date. -/
theorem last_karma_violated (wall sec : Int) (rows : List Row)
    (h : ∀ r ∈ rows, r.start > 0 → Without 'K' r.queue ∧ Without 'K' r.name ∧
      ∃ q evs st nb, st > -1 ∧ q.queue = r.queue ∧ q.name = r.name ∧ r.message = (after wall sec q (evs ++ [.current st nb])).message)
    (user project : List Char) (date : Int) :
    lastKarma rows user project date = [] ∨ ∃ r ∈ rows, r.start ≤ 0 ∧ lastKarma rows user project date = r.message := by
  rcases last_karma_exact rows user project date with ⟨h1, -⟩ | ⟨r, hr, -, -, -, hme, hm, -⟩
  · exact Or.inl h1
  · right
    refine ⟨r, hr, ?_, hm⟩
    by_cases hst : r.start ≤ 0
    · exact hst
    · obtain ⟨hq, hn, q, evs, st, nb, hs, e1, e2, e3⟩ := h r hr (by omega)
      rw [e3, after_place wall sec q evs _ _ rfl hs] at hme
      unfold message karmaPart at hme
      rw [mentions_without] at hme
      · exact absurd hme (by decide)
      · rw [List.append_nil]
        exact without_body q _ (by decide) (by decide) (by rw [e1]; exact hq) (by rw [e2]; exact hn)

/-! ## Forged fields, and examples -/

/-- A job of the queue `default` named `a,Q=admin`. -/
def forged : Sub := ⟨some (txt "a,Q=admin"), 2, 3600, false, false, txt "default", txt "default", []⟩

/-- C119 (violated). A name with a comma shows a queue in which the job is not, and a type with a comma is cut. -/
theorem forged_violated : value 'Q' (submitted forged) = some (txt "admin") ∧ forged.queue = txt "default" ∧
    value 'T' (submitted { forged with name := none, types := [txt "timesharing=user,*"] }) = some (txt "timesharing=user") := by decide

/-- A row. -/
def row0 : Row := ⟨7, true, txt "default", txt "simu", txt "bob", txt "prj", 0, submitted ⟨some (txt "simu"), 4, 7200, false, true, txt "default", txt "prj", [txt "deploy", txt "allow"]⟩, none⟩

/-- C119 (violated). A name as `PAR=3` is changed when the reservation loses resources. -/
theorem name_violated : value 'N' (fewer (message { row0 with name := txt "PAR=3" } ⟨7, 10, 4, some 60, none⟩) 2) = some (txt "PAR=2") := by decide

example : row0.message = txt "R=4,W=2:0:0,J=R,N=simu,P=prj,T=deploy|allow" ∧
    (after 7200 60 row0 [.accepted 1000 4]).message = txt "R=4,W=7260,J=P,Q=default,N=simu" ∧
    (after 7200 60 row0 [.accepted 1000 4, .lost 3]).message = txt "R=3,W=7260,J=P,Q=default,N=simu" ∧
    (after 7200 60 row0 [.accepted 1000 4, .lost 3, .late 7000]).message = txt "R=3,W=7260,J=P,Q=default,N=simu" ∧
    (after 7200 60 row0 [.accepted 1000 4, .lost 3, .late 7000, .current 1200 3]).message = txt "R=3,J=P,Q=default,N=simu" ∧
    shorter row0.message 7000 = txt "R=4,W=1:56:40,J=R,N=simu,P=prj,T=deploy|allow" ∧
    (after 7200 60 row0 [.placed 1000 4 (some (txt "0.25"))]).message = txt "R=4,W=7260,J=P,Q=default,N=simu (Karma=0.25)" ∧
    karmaOf (txt "R=4,W=7260,J=P,Q=default,N=simu (Karma=0.25)") = some (txt "0.25") ∧
    karmaOf (txt "R=4,W=7260,J=P,Q=default,N=simu (Karma=-0.25)") = none := by decide +kernel

example : PlainSub ⟨some (txt "simu"), 4, 7200, false, true, txt "default", txt "prj", [txt "deploy", txt "allow"]⟩ := by
  refine ⟨?_, by decide, by decide, by decide⟩
  intro n hn
  obtain rfl := Option.some.inj hn
  decide

example : Plain row0.queue ∧ Plain row0.name ∧ Without '=' row0.queue ∧ Without ':' row0.name ∧ Decimal (txt "0.25") :=
  ⟨by decide, by decide, by decide, by decide, ['0'], ['2', '5'], by decide, by decide, by decide, by decide, by decide⟩

example : lastKarma [{ row0 with start := 5, message := txt "x (Karma=1.5)" }, { row0 with start := 9, message := txt "y (Karma=2.5)" }, { row0 with start := 12, message := txt "z" }]
    (txt "bob") (txt "prj") 100 = txt "y (Karma=2.5)" := by decide

end Oar.Messages
