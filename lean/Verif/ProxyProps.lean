import Verif.Proxy
import Verif.PerlProps

/-!
# C80: the notifications of the nodes reach bipbip unchanged
-/

namespace Oar.Proxy

open Oar.Tools

/-! ## Text -/

theorem split_plain (c : Char) : ∀ w : List Char, c ∉ w → split c w = [w]
  | [], _ => rfl
  | x :: w, h => by
    rw [split, if_neg (fun hx : x = c => h (by rw [hx]; exact List.mem_cons_self)), split_plain c w (fun hx => h (List.mem_cons_of_mem _ hx))]

theorem split_append (c : Char) (v : List Char) : ∀ w : List Char, c ∉ w → split c (w ++ c :: v) = w :: split c v
  | [], _ => by rw [List.nil_append, split, if_pos rfl]
  | x :: w, h => by
    rw [List.cons_append, split, if_neg (fun hx : x = c => h (by rw [hx]; exact List.mem_cons_self)), split_append c v w (fun hx => h (List.mem_cons_of_mem _ hx))]

theorem rstrip_spec (a : List Char) (c : Char) (w : List Char) (hc : c.isWhitespace = false) (hw : ∀ x ∈ w, x.isWhitespace = true) :
    rstrip (a ++ c :: w) = a ++ [c] := by
  unfold rstrip
  have h1 : (a ++ c :: w).reverse = w.reverse ++ (c :: a.reverse) := by simp
  have h2 : ∀ (l r : List Char), (∀ x ∈ l, x.isWhitespace = true) → (l ++ c :: r).dropWhile Char.isWhitespace = c :: r := by
    intro l r hl
    induction l with
    | nil => rw [List.nil_append, List.dropWhile_cons, if_neg (by simp [hc])]
    | cons y l ih =>
      rw [List.cons_append, List.dropWhile_cons, if_pos (hl y List.mem_cons_self)]
      exact ih (fun x hx => hl x (List.mem_cons_of_mem _ hx))
  rw [h1, h2 _ _ (fun x hx => hw x (List.mem_reverse.1 hx))]
  simp

/-- The text without its spaces at the end: a prefix of the text. -/
theorem rstrip_prefix (s : List Char) : ∃ w, s = rstrip s ++ w ∧ ∀ x ∈ w, x.isWhitespace = true := by
  refine ⟨(s.reverse.takeWhile Char.isWhitespace).reverse, ?_, ?_⟩
  · unfold rstrip
    rw [← List.reverse_append, List.takeWhile_append_dropWhile, List.reverse_reverse]
  · intro x hx
    have := List.mem_reverse.1 hx
    clear hx
    revert this
    generalize s.reverse = l
    intro this
    induction l with
    | nil => cases this
    | cons y l ih =>
      rw [List.takeWhile_cons] at this
      by_cases hy : y.isWhitespace = true
      · rw [if_pos hy] at this
        rcases List.mem_cons.1 this with h | h
        · rw [h]; exact hy
        · exact ih h
      · rw [if_neg hy] at this; cases this

/-! ## Search -/

/-- One of the three names, `_` and a digit somewhere in the text. -/
def Occurs (m : List Char) : Prop :=
  ∃ pre n d rest, (n = txt "OAREXEC" ∨ n = txt "OARRUNJOB" ∨ n = txt "LEONEXTERMINATE") ∧ d.isDigit = true ∧ m = pre ++ n ++ '_' :: d :: rest

theorem after_iff (n s t : List Char) : after n s = some t ↔ s = n ++ t := by
  unfold after
  by_cases h : n.isPrefixOf s = true
  · rw [if_pos h]
    obtain ⟨u, hu⟩ := List.isPrefixOf_iff_prefix.1 h
    rw [← hu]
    simp
  · rw [if_neg h]
    constructor
    · intro x; cases x
    · intro x; exact absurd (List.isPrefixOf_iff_prefix.2 ⟨t, x.symm⟩) h

theorem fields_none (t : List Char) : fields t = none ↔ ¬ ∃ d r, t = d :: r ∧ d.isDigit = true := by
  unfold fields
  cases t with
  | nil => simp
  | cons d r =>
    rw [List.takeWhile_cons]
    by_cases h : d.isDigit = true
    · rw [if_pos h]; simp [h]
    · rw [if_neg h]; simp [h]

theorem matchName_none (s n : List Char) : matchName s n = none ↔ ¬ ∃ d r, s = n ++ '_' :: d :: r ∧ d.isDigit = true := by
  unfold matchName
  cases h : after (n ++ ['_']) s with
  | none =>
    dsimp only
    constructor
    · rintro _ ⟨d, r, e, _⟩
      rw [(after_iff (n ++ ['_']) s (d :: r)).2 (by rw [e]; simp)] at h
      cases h
    · intro _; rfl
  | some t =>
    dsimp only
    have e := (after_iff _ _ _).1 h
    rw [Option.map_eq_none_iff, fields_none]
    constructor
    · rintro h1 ⟨d, r, e2, hd⟩
      refine h1 ⟨d, r, ?_, hd⟩
      rw [e2, List.append_assoc] at e
      have := List.append_cancel_left e
      simpa using this.symm
    · rintro h1 ⟨d, r, e2, hd⟩
      refine h1 ⟨d, r, ?_, hd⟩
      rw [e, e2]; simp

theorem matchHere_none (s : List Char) : matchHere s = none ↔
    ¬ ∃ n d r, (n = txt "OAREXEC" ∨ n = txt "OARRUNJOB" ∨ n = txt "LEONEXTERMINATE") ∧ s = n ++ '_' :: d :: r ∧ d.isDigit = true := by
  unfold matchHere
  rw [List.findSome?_eq_none_iff]
  constructor
  · rintro h ⟨n, d, r, hn, e, hd⟩
    exact (matchName_none s n).1 (h n (by unfold names; simpa using hn)) ⟨d, r, e, hd⟩
  · intro h n hn
    rw [matchName_none]
    rintro ⟨d, r, e, hd⟩
    exact h ⟨n, d, r, by unfold names at hn; simpa using hn, e, hd⟩

theorem search_none : ∀ m : List Char, search m = none ↔ ¬ Occurs m
  | [] => by
    constructor
    · rintro _ ⟨pre, n, d, rest, _, _, e⟩
      have := congrArg List.length e
      simp at this
    · intro _; rfl
  | c :: s => by
    have ih := search_none s
    rw [search]
    cases hm : matchHere (c :: s) with
    | some x =>
      dsimp only
      constructor
      · intro x; cases x
      · intro h
        exfalso
        have : matchHere (c :: s) ≠ none := by rw [hm]; simp
        apply this
        rw [matchHere_none]
        rintro ⟨n, d, r, hn, e, hd⟩
        exact h ⟨[], n, d, r, hn, hd, by rw [e]; simp⟩
    | none =>
      dsimp only
      rw [ih]
      refine not_congr ?_
      constructor
      · rintro ⟨pre, n, d, rest, hn, hd, e⟩
        exact ⟨c :: pre, n, d, rest, hn, hd, by rw [e]; simp⟩
      · rintro ⟨pre, n, d, rest, hn, hd, e⟩
        cases pre with
        | nil => exact absurd ⟨n, d, rest, hn, by rw [e]; simp, hd⟩ ((matchHere_none _).1 hm)
        | cons p pre => exact ⟨pre, n, d, rest, hn, hd, (List.cons.inj e).2⟩

/-- **C80.** A text is sent to the launcher exactly when one of its commands is in it; the other texts go to the central automaton without their last spaces. -/
theorem routing (msg : List Char) (h : msg ≠ []) :
    (Occurs (rstrip msg) → ∃ j n a, treat msg = some (.launcher j n a)) ∧ (¬ Occurs (rstrip msg) → treat msg = some (.server (rstrip msg))) := by
  unfold treat
  rw [if_neg h]
  cases hs : search (rstrip msg) with
  | none => exact ⟨fun x => absurd x ((search_none _).1 hs), fun _ => rfl⟩
  | some x =>
    obtain ⟨n, d, r⟩ := x
    exact ⟨fun _ => ⟨_, _, _, rfl⟩, fun hx => by rw [(search_none _).2 hx] at hs; cases hs⟩

/-! ## The messages of the nodes -/

theorem search_head (n t : List Char) (hn : n = txt "OAREXEC" ∨ n = txt "OARRUNJOB" ∨ n = txt "LEONEXTERMINATE") (j : Nat) (hr : NoDigit t) :
    search (n ++ '_' :: (digits j ++ t)) = some (n, digits j, t.takeWhile (fun c => c ≠ '\n')) := by
  obtain ⟨h1, h2, _, _⟩ := digits_spec j
  obtain ⟨t1, t2⟩ := takeWhile_digits (digits j) t h2 hr
  have hf : fields (digits j ++ t) = some (digits j, t.takeWhile (fun c => c ≠ '\n')) := by
    unfold fields; rw [t1, t2, if_neg h1]
  have hm : ∀ k : List Char, k = n → matchName (n ++ '_' :: (digits j ++ t)) k = some (n, digits j, t.takeWhile (fun c => c ≠ '\n')) := by
    rintro k rfl
    unfold matchName
    rw [(after_iff (k ++ ['_']) _ (digits j ++ t)).2 (by simp)]
    dsimp only
    rw [hf]; rfl
  have hh : matchHere (n ++ '_' :: (digits j ++ t)) = some (n, digits j, t.takeWhile (fun c => c ≠ '\n')) := by
    unfold matchHere names
    rcases hn with e | e | e
    · rw [List.findSome?_cons, hm _ e.symm]
    · have a1 : matchName (n ++ '_' :: (digits j ++ t)) (txt "OAREXEC") = none := by
        rw [matchName_none]
        rintro ⟨d, r, x, _⟩
        rw [e] at x
        simp only [txt, String.reduceToList, List.cons_append, List.nil_append] at x
        simp at x
      rw [List.findSome?_cons, a1, List.findSome?_cons, hm _ e.symm]
    · have a1 : matchName (n ++ '_' :: (digits j ++ t)) (txt "OAREXEC") = none := by
        rw [matchName_none]
        rintro ⟨d, r, x, _⟩
        rw [e] at x
        simp only [txt, String.reduceToList, List.cons_append, List.nil_append] at x
        simp at x
      have a2 : matchName (n ++ '_' :: (digits j ++ t)) (txt "OARRUNJOB") = none := by
        rw [matchName_none]
        rintro ⟨d, r, x, _⟩
        rw [e] at x
        simp only [txt, String.reduceToList, List.cons_append, List.nil_append] at x
        simp at x
      rw [List.findSome?_cons, a1, List.findSome?_cons, a2, List.findSome?_cons, hm _ e.symm]
  cases hx : n ++ '_' :: (digits j ++ t) with
  | nil => simp at hx
  | cons c s =>
    rw [hx] at hh
    rw [search, hh]

/-- A field that the shell leaves unchanged and that is not cut. -/
def Field (w : List Char) : Prop := w ≠ [] ∧ ∀ c ∈ w, plain c = true ∧ c ≠ '_'

theorem plain_facts (c : Char) (h : plain c = true) : c.isWhitespace = false ∧ c ≠ '\n' ∧ c ≠ ' ' := by
  have : c.isWhitespace = false := by
    by_cases hw : c.isWhitespace = true
    · exfalso
      unfold Char.isWhitespace at hw
      simp only [Bool.or_eq_true, decide_eq_true_eq] at hw
      rcases hw with ((hw | hw) | hw) | hw <;> (rw [hw] at h; exact absurd h (by decide))
    · simpa using hw
  refine ⟨this, ?_, ?_⟩ <;> (rintro rfl; exact absurd this (by decide))

theorem digits_field (j : Nat) : Field (digits j) := by
  obtain ⟨h1, h2, _, h4⟩ := digits_spec j
  refine ⟨h1, fun c hc => ?_⟩
  have hd := List.all_eq_true.1 h2 c hc
  refine ⟨?_, ?_⟩
  · unfold plain Char.isAlphanum; simp [hd]
  · rintro rfl; exact absurd hd (by decide)

theorem field_last (w : List Char) (h : Field w) : ∃ a c, w = a ++ [c] ∧ c.isWhitespace = false := by
  refine ⟨w.dropLast, w.getLast h.1, (List.dropLast_concat_getLast h.1).symm, (plain_facts _ (h.2 _ (List.getLast_mem h.1)).1).1⟩

theorem line_keep (w : List Char) (h : ∀ c ∈ w, c ≠ '\n') : ∀ t : List Char, (t = [] ∨ ∃ r, t = '\n' :: r) → (w ++ t).takeWhile (fun c => c ≠ '\n') = w := by
  intro t ht
  induction w with
  | nil =>
    rcases ht with rfl | ⟨r, rfl⟩
    · rfl
    · rfl
  | cons c w ih =>
    rw [List.cons_append, List.takeWhile_cons, if_pos (by simpa using h c List.mem_cons_self), ih (fun x hx => h x (List.mem_cons_of_mem _ hx))]

theorem noDigit_of (c : Char) (h : c.isDigit = false) (r : List Char) : NoDigit (c :: r) := by
  intro c' r' e
  rw [← (List.cons.inj e).1]; exact h

theorem rstrip_field (a w t : List Char) (hw : Field w) (ht : ∀ x ∈ t, x.isWhitespace = true) : rstrip (a ++ w ++ t) = a ++ w := by
  obtain ⟨b, c, rfl, hc⟩ := field_last w hw
  have := rstrip_spec (a ++ b) c t hc ht
  simpa using this

/-- What can follow a message in what the socket gives: nothing, or the end of the line and anything. -/
def Next (t : List Char) : Prop := t = [] ∨ ∃ r, t = '\n' :: r

/-- The text without its last spaces, when it begins by a message. -/
theorem rstrip_next (a w t : List Char) (hw : Field w) (ht : Next t) : ∃ t', rstrip (a ++ w ++ t) = a ++ w ++ t' ∧ Next t' := by
  rcases ht with rfl | ⟨r, rfl⟩
  · exact ⟨[], by rw [rstrip_field a w [] hw (by simp)]; simp, Or.inl rfl⟩
  · by_cases hr : ∀ x ∈ ('\n' :: r), x.isWhitespace = true
    · exact ⟨[], by rw [rstrip_field a w _ hw hr]; simp, Or.inl rfl⟩
    · -- a last character that is not a space is after the end of the line
      have : ∃ b c v, r = b ++ c :: v ∧ c.isWhitespace = false ∧ ∀ x ∈ v, x.isWhitespace = true := by
        have hex : ∃ x ∈ r, x.isWhitespace = false := by
          apply Classical.byContradiction
          intro hx
          apply hr
          intro x hm
          rcases List.mem_cons.1 hm with rfl | hm
          · decide
          · cases hxw : x.isWhitespace with
            | true => rfl
            | false => exact absurd ⟨x, hm, hxw⟩ hx
        clear hr
        induction r with
        | nil => obtain ⟨x, hx, _⟩ := hex; cases hx
        | cons y r ih =>
          by_cases hin : ∃ x ∈ r, x.isWhitespace = false
          · obtain ⟨b, c, v, e, hc, hv⟩ := ih hin
            exact ⟨y :: b, c, v, by rw [e]; rfl, hc, hv⟩
          · obtain ⟨x, hx, hxw⟩ := hex
            rcases List.mem_cons.1 hx with rfl | hx
            · refine ⟨[], x, r, rfl, hxw, fun z hz => ?_⟩
              cases hzw : z.isWhitespace with
              | true => rfl
              | false => exact absurd ⟨z, hz, hzw⟩ hin
            · exact absurd ⟨x, hx, hxw⟩ hin
      obtain ⟨b, c, v, e, hc, hv⟩ := this
      refine ⟨'\n' :: (b ++ [c]), ?_, Or.inr ⟨_, rfl⟩⟩
      have := rstrip_spec (a ++ w ++ '\n' :: b) c v hc hv
      rw [e]
      simpa using this

theorem treat_oarexec (job : Nat) (exit script challenge t : List Char) (h1 : Field exit) (h2 : Field script) (h3 : Field challenge) (ht : Next t) :
    treat (oarexecMsg job exit script challenge ++ t) = some (.launcher job (txt "OAREXEC") [exit, script, challenge]) := by
  have e : oarexecMsg job exit script challenge ++ t =
      (txt "OAREXEC" ++ '_' :: (digits job ++ ('_' :: exit ++ '_' :: script ++ ['_']))) ++ challenge ++ t := by
    simp [oarexecMsg, txt]
  unfold treat
  rw [if_neg (by rw [e]; simp), e]
  obtain ⟨t', r1, r2⟩ := rstrip_next (txt "OAREXEC" ++ '_' :: (digits job ++ ('_' :: exit ++ '_' :: script ++ ['_']))) challenge t h3 ht
  rw [r1]
  have e2 : (txt "OAREXEC" ++ '_' :: (digits job ++ ('_' :: exit ++ '_' :: script ++ ['_']))) ++ challenge ++ t' =
      txt "OAREXEC" ++ '_' :: (digits job ++ (('_' :: exit ++ '_' :: script ++ '_' :: challenge) ++ t')) := by simp
  have nd : NoDigit (('_' :: exit ++ '_' :: script ++ '_' :: challenge) ++ t') := noDigit_of '_' (by decide) _
  have nl : ∀ c ∈ ('_' :: exit ++ '_' :: script ++ '_' :: challenge), c ≠ '\n' := by
    have hp : ∀ w, Field w → ∀ c ∈ w, c ≠ '\n' := fun w hw c hc => (plain_facts c (hw.2 c hc).1).2.1
    intro c hc
    simp only [List.cons_append, List.mem_cons, List.mem_append] at hc
    rcases hc with rfl | (hc | rfl | hc) | rfl | hc
    · decide
    · exact hp _ h1 c hc
    · decide
    · exact hp _ h2 c hc
    · decide
    · exact hp _ h3 c hc
  rw [e2, search_head _ _ (Or.inl rfl) job nd, line_keep _ nl t' r2]
  dsimp only
  have us : ∀ w, Field w → '_' ∉ w := fun w hw hx => (hw.2 _ hx).2 rfl
  have s1 : split '_' ('_' :: exit ++ '_' :: script ++ '_' :: challenge) = [[], exit, script, challenge] := by
    have : '_' :: exit ++ '_' :: script ++ '_' :: challenge = [] ++ '_' :: (exit ++ '_' :: (script ++ '_' :: challenge)) := by simp
    rw [this, split_append _ _ _ (by simp), split_append _ _ _ (us _ h1), split_append _ _ _ (us _ h2), split_plain _ _ (us _ h3)]
  rw [s1, (digits_spec job).2.2.1]
  rfl

theorem treat_short (n : List Char) (hn : n = txt "OAREXEC" ∨ n = txt "OARRUNJOB" ∨ n = txt "LEONEXTERMINATE") (job : Nat) (t : List Char) (ht : Next t) :
    treat (n ++ '_' :: digits job ++ t) = some (.launcher job n []) := by
  unfold treat
  rw [if_neg (by simp)]
  have e : n ++ '_' :: digits job ++ t = (n ++ ['_']) ++ digits job ++ t := by simp
  obtain ⟨t', r1, r2⟩ := rstrip_next (n ++ ['_']) (digits job) t (digits_field job) ht
  have e2 : (n ++ ['_']) ++ digits job ++ t' = n ++ '_' :: (digits job ++ t') := by simp
  have nd : NoDigit t' := by
    rcases r2 with rfl | ⟨r, rfl⟩
    · intro c r h; cases h
    · exact noDigit_of '\n' (by decide) _
  rw [e, r1, e2, search_head _ _ hn job nd]
  have l0 : t'.takeWhile (fun c => c ≠ '\n') = [] := line_keep [] (by simp) t' r2
  rw [l0]
  dsimp only
  rw [(digits_spec job).2.2.1]
  rfl

theorem words_join : ∀ ws : List (List Char), ws ≠ [] → (∀ w ∈ ws, w ≠ [] ∧ ∀ c ∈ w, plain c = true) → words ([' '].intercalate ws) = some ws := by
  intro ws hne h
  have hall : ∀ ws : List (List Char), (∀ w ∈ ws, ∀ c ∈ w, plain c = true) → ([' '].intercalate ws).all (fun c => plain c || c == ' ') = true := by
    intro ws h
    induction ws with
    | nil => rfl
    | cons w ws ih =>
      cases ws with
      | nil => simp [List.intercalate, List.intersperse]; exact fun c hc => Or.inl (h w (by simp) c hc)
      | cons v vs =>
        have e : [' '].intercalate (w :: v :: vs) = w ++ ' ' :: [' '].intercalate (v :: vs) := by simp [List.intercalate, List.intersperse]
        rw [e, List.all_append, List.all_cons, ih (fun x hx => h x (List.mem_cons_of_mem _ hx))]
        rw [List.all_eq_true.2 (fun c hc => by rw [h w (by simp) c hc]; rfl)]
        rfl
  have hsp : ∀ ws : List (List Char), ws ≠ [] → (∀ w ∈ ws, ' ' ∉ w) → split ' ' ([' '].intercalate ws) = ws := by
    intro ws hne h
    induction ws with
    | nil => exact absurd rfl hne
    | cons w ws ih =>
      cases ws with
      | nil =>
        have e : [' '].intercalate [w] = w := by simp [List.intercalate, List.intersperse]
        rw [e, split_plain _ _ (h w (by simp))]
      | cons v vs =>
        have e : [' '].intercalate (w :: v :: vs) = w ++ ' ' :: [' '].intercalate (v :: vs) := by simp [List.intercalate, List.intersperse]
        rw [e, split_append _ _ _ (h w (by simp)), ih (by simp) (fun x hx => h x (List.mem_cons_of_mem _ hx))]
  unfold words
  rw [if_pos (hall ws (fun w hw => (h w hw).2)), hsp ws hne (fun w hw hx => (plain_facts _ ((h w hw).2 _ hx)).2.2 rfl),
    List.filter_eq_self.2 (fun w hw => by simpa using (h w hw).1)]

/-- A path the shell leaves unchanged. -/
def PlainPath (p : List Char) : Prop := p ≠ [] ∧ ∀ c ∈ p, plain c = true

theorem field_plain {w : List Char} (h : Field w) : w ≠ [] ∧ ∀ c ∈ w, plain c = true := ⟨h.1, fun c hc => (h.2 c hc).1⟩

/-- **C80.** The message of oarexec, alone or first of what the socket gives, ends as one run of bipbip for this job with exactly its three fields. -/
theorem oarexec_exact (leon bipbip : List Char) (hp : PlainPath bipbip) (job : Nat) (exit script challenge : List Char) (h1 : Field exit) (h2 : Field script)
    (h3 : Field challenge) :
    treat (oarexecMsg job exit script challenge ++ ['\n']) = some (.launcher job (txt "OAREXEC") [exit, script, challenge]) ∧
    words (commandLine leon bipbip job (txt "OAREXEC") [exit, script, challenge]) = some [bipbip, digits job, exit, script, challenge] ∧
    bipbipArgs [digits job, exit, script, challenge] = some (job, some exit, some script, some challenge) := by
  refine ⟨treat_oarexec job exit script challenge _ h1 h2 h3 (Or.inr ⟨[], rfl⟩), ?_, ?_⟩
  · unfold commandLine
    rw [if_neg (by decide)]
    refine words_join _ (by simp) ?_
    intro w hw
    simp only [List.cons_append, List.nil_append, List.mem_cons, List.not_mem_nil, or_false] at hw
    rcases hw with rfl | rfl | rfl | rfl | rfl
    · exact hp
    · exact field_plain (digits_field job)
    · exact field_plain h1
    · exact field_plain h2
    · exact field_plain h3
  · unfold bipbipArgs
    dsimp only
    rw [pyNat_digits]
    rfl

/-- **C80.** The message of the scheduler ends as one run of bipbip for this job, without other argument. -/
theorem run_exact (leon bipbip : List Char) (hp : PlainPath bipbip) (job : Nat) :
    treat (runMsg job ++ ['\n']) = some (.launcher job (txt "OARRUNJOB") []) ∧
    words (commandLine leon bipbip job (txt "OARRUNJOB") []) = some [bipbip, digits job] ∧
    bipbipArgs [digits job] = some (job, none, none, none) := by
  refine ⟨?_, ?_, ?_⟩
  · have := treat_short (txt "OARRUNJOB") (Or.inr (Or.inl rfl)) job ['\n'] (Or.inr ⟨[], rfl⟩)
    have e : runMsg job ++ ['\n'] = txt "OARRUNJOB" ++ '_' :: digits job ++ ['\n'] := by simp [runMsg, txt]
    rw [e]; exact this
  · unfold commandLine
    rw [if_neg (by decide)]
    refine words_join _ (by simp) ?_
    intro w hw
    simp only [List.cons_append, List.append_nil, List.mem_cons, List.not_mem_nil, or_false] at hw
    rcases hw with rfl | rfl
    · exact hp
    · exact field_plain (digits_field job)
  · unfold bipbipArgs
    dsimp only
    rw [pyNat_digits]
    rfl

/-- **C80.** The message of extermination ends as one run of Leon for this job. -/
theorem leon_exact (leon bipbip : List Char) (hp : PlainPath leon) (job : Nat) :
    treat (leonMsg job ++ ['\n']) = some (.launcher job (txt "LEONEXTERMINATE") []) ∧
    words (commandLine leon bipbip job (txt "LEONEXTERMINATE") []) = some [leon, digits job] := by
  refine ⟨?_, ?_⟩
  · have := treat_short (txt "LEONEXTERMINATE") (Or.inr (Or.inr rfl)) job ['\n'] (Or.inr ⟨[], rfl⟩)
    have e : leonMsg job ++ ['\n'] = txt "LEONEXTERMINATE" ++ '_' :: digits job ++ ['\n'] := by simp [leonMsg, txt]
    rw [e]; exact this
  · unfold commandLine
    rw [if_pos rfl]
    refine words_join _ (by simp) ?_
    intro w hw
    simp only [List.mem_cons, List.not_mem_nil, or_false] at hw
    rcases hw with rfl | rfl
    · exact hp
    · exact field_plain (digits_field job)

/-! ## Violations -/

/-- C80 (violated). Of the messages given together by the socket only the first is treated. -/
theorem together_violated (job : Nat) (exit script challenge : List Char) (h1 : Field exit) (h2 : Field script) (h3 : Field challenge) (rest : List Char) :
    run [some (oarexecMsg job exit script challenge ++ '\n' :: rest)] = ([.launcher job (txt "OAREXEC") [exit, script, challenge]], true) := by
  unfold run
  rw [treat_oarexec job exit script challenge _ h1 h2 h3 (Or.inr ⟨rest, rfl⟩)]
  rfl

theorem digF_fuel : ∀ (f g n : Nat), n < f → n < g → digF f n = digF g n
  | 0, _, _, h, _ => absurd h (by omega)
  | _ + 1, 0, _, _, h => absurd h (by omega)
  | f + 1, g + 1, n, h1, h2 => by
    unfold digF
    by_cases hn : n < 10
    · rw [if_pos hn, if_pos hn]
    · rw [if_neg hn, if_neg hn, digF_fuel f g (n / 10) (by omega) (by omega)]

theorem digits_cut (j : Nat) (h : 10 ≤ j) : digits j = digits (j / 10) ++ [ch (j % 10)] := by
  unfold digits
  rw [digF, if_neg (by omega), digF_fuel j (j / 10 + 1) (j / 10) (by omega) (by omega)]

/-- C80 (violated). When the socket gives a message in two parts, cut before the last digit of the job, bipbip is run for another job, and as for its launch. -/
theorem cut_violated (leon bipbip : List Char) (hp : PlainPath bipbip) (job : Nat) (h : 10 ≤ job) (exit script challenge : List Char) :
    ∃ first second, first ++ second = oarexecMsg job exit script challenge ++ ['\n'] ∧
      treat first = some (.launcher (job / 10) (txt "OAREXEC") []) ∧
      words (commandLine leon bipbip (job / 10) (txt "OAREXEC") []) = some [bipbip, digits (job / 10)] := by
  refine ⟨txt "OAREXEC" ++ '_' :: digits (job / 10) ++ [], ch (job % 10) :: '_' :: exit ++ '_' :: script ++ '_' :: challenge ++ ['\n'], ?_,
    treat_short _ (Or.inl rfl) (job / 10) [] (Or.inl rfl), ?_⟩
  · unfold oarexecMsg
    rw [digits_cut job h]
    simp [txt]
  · have := (run_exact leon bipbip hp (job / 10)).2.1
    unfold commandLine at this ⊢
    rw [if_neg (by decide)] at this ⊢
    exact this

/-- C80 (violated). Any text on one line without `_` sent to the socket after the name of a job is given to the shell of the server. -/
theorem shell_violated (leon bipbip t : List Char) (c : Char) (hc : c.isWhitespace = false) (ht : '_' ∉ t ++ [c] ∧ '\n' ∉ t ++ [c]) (job : Nat) :
    treat (txt "OAREXEC_" ++ digits job ++ '_' :: t ++ [c] ++ ['\n']) = some (.launcher job (txt "OAREXEC") [t ++ [c]]) ∧
    commandLine leon bipbip job (txt "OAREXEC") [t ++ [c]] = bipbip ++ ' ' :: digits job ++ ' ' :: t ++ [c] := by
  refine ⟨?_, ?_⟩
  · unfold treat
    rw [if_neg (by simp)]
    have e : txt "OAREXEC_" ++ digits job ++ '_' :: t ++ [c] ++ ['\n'] = (txt "OAREXEC_" ++ digits job ++ '_' :: t) ++ c :: ['\n'] := by simp
    have e2 : (txt "OAREXEC_" ++ digits job ++ '_' :: t) ++ [c] = txt "OAREXEC" ++ '_' :: (digits job ++ ('_' :: (t ++ [c]))) := by simp [txt]
    rw [e, rstrip_spec _ c ['\n'] hc (by simp), e2, search_head _ _ (Or.inl rfl) job (noDigit_of '_' (by decide) _)]
    have l := line_keep ('_' :: (t ++ [c])) (by
      intro x hx
      rcases List.mem_cons.1 hx with rfl | hx
      · decide
      · rintro rfl; exact ht.2 hx) [] (Or.inl rfl)
    rw [List.append_nil] at l
    rw [l]
    dsimp only
    have s1 : split '_' ('_' :: (t ++ [c])) = [[], t ++ [c]] := by
      have := split_append '_' (t ++ [c]) [] (by simp)
      rw [List.nil_append] at this
      rw [this, split_plain _ _ ht.1]
    rw [s1, (digits_spec job).2.2.1]
    rfl
  · unfold commandLine
    rw [if_neg (by decide)]
    simp [List.intercalate, List.intersperse]

/-- C80 (violated). An empty field disappears in the command line: bipbip reads the exit value of the script as that of oarexec, and no challenge. -/
theorem empty_field_violated (leon bipbip : List Char) (hp : PlainPath bipbip) (job : Nat) (script challenge : List Char) (h2 : Field script) (h3 : Field challenge) :
    words (commandLine leon bipbip job (txt "OAREXEC") [[], script, challenge]) = some [bipbip, digits job, script, challenge] ∧
    bipbipArgs [digits job, script, challenge] = some (job, some script, some challenge, none) := by
  refine ⟨?_, ?_⟩
  · unfold commandLine
    rw [if_neg (by decide)]
    have nsp : ∀ w : List Char, (∀ c ∈ w, plain c = true) → ' ' ∉ w := fun w hw hx => (plain_facts _ (hw _ hx)).2.2 rfl
    have hd := (field_plain (digits_field job)).2
    have e : [' '].intercalate ([bipbip, digits job] ++ [[], script, challenge]) =
        bipbip ++ ' ' :: (digits job ++ ' ' :: ([] ++ ' ' :: (script ++ ' ' :: challenge))) := by simp [List.intercalate, List.intersperse]
    unfold words
    rw [e, if_pos, split_append _ _ _ (nsp _ hp.2), split_append _ _ _ (nsp _ hd), split_append _ _ _ (by simp), split_append _ _ _ (nsp _ (field_plain h2).2),
      split_plain _ _ (nsp _ (field_plain h3).2)]
    · simp [hp.1, (digits_field job).1, h2.1, h3.1]
    · rw [List.all_eq_true]
      intro c hc
      simp only [List.mem_append, List.mem_cons, List.nil_append] at hc
      rcases hc with hc | rfl | hc | rfl | rfl | hc | rfl | hc
      · rw [hp.2 c hc]; rfl
      · rfl
      · rw [hd c hc]; rfl
      · rfl
      · rfl
      · rw [(field_plain h2).2 c hc]; rfl
      · rfl
      · rw [(field_plain h3).2 c hc]; rfl
  · unfold bipbipArgs
    dsimp only
    rw [pyNat_digits]
    rfl

/-- C80 (violated). A chunk that is not UTF-8 text stops the proxy: all that follows is lost. -/
theorem not_text_violated : ∀ (a : List (List Char)) (b : List (Option (List Char))), run (a.map some ++ none :: b) = (a.flatMap (fun m => (treat m).toList), false)
  | [], _ => rfl
  | m :: a, b => by
    rw [List.map_cons, List.cons_append, run, not_text_violated a b]
    rfl

/-- **C80.** Messages given one by one are all treated, in order. -/
theorem one_by_one : ∀ a : List (List Char), run (a.map some) = (a.flatMap (fun m => (treat m).toList), true)
  | [] => rfl
  | m :: a => by
    rw [List.map_cons, run, one_by_one a]
    rfl

/-! ## Examples -/

example : treat (txt "OAREXEC_42_0_N_123456\n") = some (.launcher 42 (txt "OAREXEC") [txt "0", txt "N", txt "123456"]) := by decide +kernel
example : treat (txt "Qsub\n") = some (.server (txt "Qsub")) := by decide +kernel
example : treat [] = none := rfl
example : Field (txt "N") ∧ Field (txt "123456") ∧ PlainPath (txt "/usr/lib/oar/oar-bipbip") := by
  refine ⟨⟨by decide, by decide⟩, ⟨by decide, by decide⟩, by decide, by decide⟩

end Oar.Proxy
