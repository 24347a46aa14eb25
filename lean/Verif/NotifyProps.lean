import Verif.NotifySpec
import Verif.ScriptProps
import Verif.ToolsProps
import Verif.BipbipState

/-!
# The notifications (C87)
-/

namespace Oar.Notify

open Oar.Tools Oar.Config Oar.Script Oar.Jobs Oar.Notify.Spec

/-! ## The characters of a command -/

theorem safe_small {c : Char} (h : safe c = true) : c.toNat < 128 := by
  unfold safe at h
  simp only [Bool.or_eq_true, Bool.and_eq_true, decide_eq_true_eq, beq_iff_eq] at h
  rcases h with ((((((⟨_, h⟩ | ⟨_, h⟩) | ⟨_, h⟩) | h) | h) | h) | h) | h
  · have : c.toNat ≤ 'z'.toNat := h
    exact Nat.lt_of_le_of_lt this (by decide)
  · have : c.toNat ≤ 'Z'.toNat := h
    exact Nat.lt_of_le_of_lt this (by decide)
  · have : c.toNat ≤ '9'.toNat := h
    exact Nat.lt_of_le_of_lt this (by decide)
  all_goals (subst h; decide)

theorem safe_table : ∀ n : Fin 128, safe (Char.ofNat n) = true →
    Char.ofNat n ∈ "abcdefghijklmnopqrstuvwxyzABCDEFGHIJKLMNOPQRSTUVWXYZ0123456789_./ -".toList := by
  decide +kernel

theorem safe_iff (c : Char) : safe c = true ↔ c ∈ "abcdefghijklmnopqrstuvwxyzABCDEFGHIJKLMNOPQRSTUVWXYZ0123456789_./ -".toList := by
  constructor
  · intro h
    have := safe_table ⟨c.toNat, safe_small h⟩
    rw [Char.ofNat_toNat] at this
    exact this h
  · have : ∀ c ∈ "abcdefghijklmnopqrstuvwxyzABCDEFGHIJKLMNOPQRSTUVWXYZ0123456789_./ -".toList, safe c = true := by decide +kernel
    exact this c

theorem command_iff (t : List Char) : Command t ↔ t.all safe = true := by
  rw [List.all_eq_true]
  exact ⟨fun h c hc => (safe_iff c).2 (h c hc), fun h c hc => (safe_iff c).1 (h c hc)⟩

theorem safe_plain {c : Char} (h : safe c = true) : c ≠ ':' ∧ c ≠ ']' := by
  constructor <;> rintro rfl <;> exact absurd h (by decide)

/-! ## The places of a method in a text -/

/-- The method `w` with a colon and something after it. -/
def Occurs (w t a : List Char) : Prop := ∃ p bl, t = p ++ w ++ bl ++ ':' :: a ∧ (∀ c ∈ bl, isSpace c = true) ∧ a ≠ []

theorem dropWhile_split (p : Char → Bool) : ∀ t : List Char, ∃ bl, t = bl ++ t.dropWhile p ∧ ∀ c ∈ bl, p c = true
  | [] => ⟨[], rfl, by simp⟩
  | c :: t => by
    by_cases hc : p c = true
    · obtain ⟨bl, h1, h2⟩ := dropWhile_split p t
      refine ⟨c :: bl, ?_, ?_⟩
      · rw [List.dropWhile_cons, if_pos hc, List.cons_append, ← h1]
      · intro x hx
        rcases List.mem_cons.1 hx with rfl | hx
        · exact hc
        · exact h2 x hx
    · exact ⟨[], by rw [List.dropWhile_cons, if_neg hc]; rfl, by simp⟩

theorem colon_some {t a : List Char} (h : colon t = some a) :
    ∃ bl, t = bl ++ ':' :: a ∧ (∀ c ∈ bl, isSpace c = true) ∧ a ≠ [] := by
  obtain ⟨bl, h1, h2⟩ := dropWhile_split isSpace t
  unfold colon at h
  split at h
  · rename_i b hb
    by_cases he : b = []
    · rw [if_pos he] at h; exact absurd h (by simp)
    · rw [if_neg he] at h
      obtain rfl := Option.some.inj h
      exact ⟨bl, by rw [hb] at h1; exact h1, h2, he⟩
  · exact absurd h (by simp)

theorem colon_at {bl a : List Char} (hb : ∀ c ∈ bl, isSpace c = true) (ha : a ≠ []) : colon (bl ++ ':' :: a) = some a := by
  unfold colon
  rw [dropWhile_all isSpace bl _ hb, dropWhile_none isSpace ':' a (by decide)]
  exact if_neg ha

theorem here_some {w t a : List Char} (h : (after w t).bind colon = some a) :
    ∃ bl, t = w ++ bl ++ ':' :: a ∧ (∀ c ∈ bl, isSpace c = true) ∧ a ≠ [] := by
  cases h1 : after w t with
  | none => rw [h1] at h; exact absurd h (by simp)
  | some r =>
    rw [h1] at h
    obtain ⟨bl, h2, h3, h4⟩ := colon_some (show colon r = some a from h)
    exact ⟨bl, by rw [after_some h1, h2, List.append_assoc], h3, h4⟩

theorem here_at {w bl a : List Char} (hb : ∀ c ∈ bl, isSpace c = true) (ha : a ≠ []) :
    (after w (w ++ bl ++ ':' :: a)).bind colon = some a := by
  rw [List.append_assoc, after_append]
  exact colon_at hb ha

theorem mailTo_occurs : ∀ {t a : List Char}, mailTo t = some a → Occurs (txt "mail") t a
  | [], a, h => by exact absurd h (by simp [mailTo])
  | c :: r, a, h => by
    unfold mailTo at h
    cases h1 : mailTo r with
    | some b =>
      rw [h1] at h
      obtain rfl := Option.some.inj (show some b = some a from h)
      obtain ⟨p, bl, h2, h3, h4⟩ := mailTo_occurs h1
      exact ⟨c :: p, bl, by rw [h2]; simp, h3, h4⟩
    | none =>
      rw [h1] at h
      obtain ⟨bl, h2, h3, h4⟩ := here_some (show _ = some a from h)
      exact ⟨[], bl, by rw [h2]; simp, h3, h4⟩

theorem mailTo_here {r a : List Char} (h : (after (txt "mail") r).bind colon = some a) : mailTo r ≠ none := by
  cases r with
  | nil => simp [after, txt] at h
  | cons c r =>
    unfold mailTo
    cases mailTo r with
    | some b => simp
    | none => dsimp only; rw [h]; simp

theorem mailTo_append (p : List Char) {r : List Char} (h : mailTo r ≠ none) : mailTo (p ++ r) ≠ none := by
  induction p with
  | nil => exact h
  | cons c p ih =>
    show mailTo (c :: (p ++ r)) ≠ none
    unfold mailTo
    cases h1 : mailTo (p ++ r) with
    | none => exact absurd h1 ih
    | some b => simp

theorem hasExec_occurs : ∀ {t : List Char}, hasExec t = true → ∃ a, Occurs (txt "exec") t a
  | [], h => by exact absurd h (by simp [hasExec])
  | c :: r, h => by
    unfold hasExec at h
    rw [Bool.or_eq_true] at h
    rcases h with h | h
    · obtain ⟨a, p, bl, h2, h3, h4⟩ := hasExec_occurs h
      exact ⟨a, c :: p, bl, by rw [h2]; simp, h3, h4⟩
    · obtain ⟨a, ha⟩ := Option.isSome_iff_exists.1 h
      obtain ⟨bl, h2, h3, h4⟩ := here_some ha
      exact ⟨a, [], bl, by rw [h2]; simp, h3, h4⟩

theorem hasExec_append (p : List Char) {r : List Char} (h : hasExec r = true) : hasExec (p ++ r) = true := by
  induction p with
  | nil => exact h
  | cons c p ih =>
    show hasExec (c :: (p ++ r)) = true
    unfold hasExec
    rw [ih]; rfl

theorem execCmd_occurs : ∀ {t a : List Char}, execCmd t = some a → Occurs (txt "exec") t a ∧ a.all safe = true
  | [], a, h => by exact absurd h (by simp [execCmd])
  | c :: r, a, h => by
    unfold execCmd at h
    cases h1 : execCmd r with
    | some b =>
      rw [h1] at h
      obtain rfl := Option.some.inj (show some b = some a from h)
      obtain ⟨⟨p, bl, h2, h3, h4⟩, h5⟩ := execCmd_occurs h1
      exact ⟨⟨c :: p, bl, by rw [h2]; simp, h3, h4⟩, h5⟩
    | none =>
      rw [h1] at h
      dsimp only at h
      cases h6 : (after (txt "exec") (c :: r)).bind colon with
      | none => rw [h6] at h; exact absurd h (by simp)
      | some b =>
        rw [h6] at h
        simp only [Option.bind_some] at h
        by_cases hs : b.all safe = true
        · rw [if_pos hs] at h
          obtain rfl := Option.some.inj h
          obtain ⟨bl, h2, h3, h4⟩ := here_some h6
          exact ⟨⟨[], bl, by rw [h2]; simp, h3, h4⟩, hs⟩
        · rw [if_neg hs] at h
          exact absurd h (by simp)

theorem execCmd_here {r a : List Char} (h : (after (txt "exec") r).bind colon = some a) (hs : a.all safe = true) : execCmd r ≠ none := by
  cases r with
  | nil => simp [after, txt] at h
  | cons c r =>
    unfold execCmd
    cases execCmd r with
    | some b => simp
    | none =>
      dsimp only
      rw [h, Option.bind_some, if_pos hs]
      simp

theorem execCmd_append (p : List Char) {r : List Char} (h : execCmd r ≠ none) : execCmd (p ++ r) ≠ none := by
  induction p with
  | nil => exact h
  | cons c p ih =>
    show execCmd (c :: (p ++ r)) ≠ none
    unfold execCmd
    cases h1 : execCmd (p ++ r) with
    | none => exact absurd h1 ih
    | some b => simp

/-- A text with one colon is cut in one way. -/
theorem one_colon {q t p a : List Char} (hq : ∀ c ∈ q, c ≠ ':') (ht : ∀ c ∈ t, c ≠ ':') (h : q ++ ':' :: t = p ++ ':' :: a) : q = p ∧ t = a := by
  rcases List.append_eq_append_iff.1 h with ⟨s, h1, h2⟩ | ⟨s, h1, h2⟩
  · cases s with
    | nil => simp at h1 h2; exact ⟨h1.symm, h2⟩
    | cons x s =>
      rw [List.cons_append] at h2
      injection h2 with h3 h4
      exact absurd rfl (ht ':' (by rw [h4]; simp))
  · cases s with
    | nil => simp at h1 h2; exact ⟨h1, h2.symm⟩
    | cons x s =>
      rw [List.cons_append] at h2
      injection h2 with h3 h4
      exact absurd rfl (hq ':' (by rw [h1, ← h3]; simp))

/-- The last character that is not a blank. -/
theorem last_unblank {p q b d : List Char} {x y : Char} (hb : ∀ c ∈ b, isSpace c = true) (hd : ∀ c ∈ d, isSpace c = true) (hx : isSpace x = false)
    (hy : isSpace y = false) (h : p ++ [x] ++ b = q ++ [y] ++ d) : x = y := by
  have h1 := congrArg (fun l => l.reverse.dropWhile isSpace) h
  simp only [List.reverse_append] at h1
  rw [dropWhile_all isSpace _ _ (fun c hc => hb c (List.mem_reverse.1 hc)), dropWhile_all isSpace _ _ (fun c hc => hd c (List.mem_reverse.1 hc))] at h1
  simp only [List.reverse_cons, List.reverse_nil, List.nil_append, List.cons_append] at h1
  rw [dropWhile_none isSpace x _ hx, dropWhile_none isSpace y _ hy] at h1
  exact (List.cons.inj h1).1

/-! ## The tags -/

theorem lastClose_none : ∀ {t : List Char}, (∀ c ∈ t, c ≠ ']') → lastClose t = none
  | [], _ => rfl
  | c :: r, h => by
    unfold lastClose
    rw [lastClose_none (fun x hx => h x (List.mem_cons_of_mem _ hx))]
    dsimp only
    rw [if_neg (fun hc => h c List.mem_cons_self hc.1)]

theorem lastClose_at {i m : List Char} (hm : ∀ c ∈ m, c ≠ ']') (ho : methodOk m = true) : lastClose (i ++ ']' :: m) = some i := by
  induction i with
  | nil =>
    show lastClose (']' :: m) = _
    unfold lastClose
    rw [lastClose_none hm]
    dsimp only
    rw [if_pos ⟨rfl, ho⟩]
  | cons c i ih =>
    show lastClose (c :: (i ++ ']' :: m)) = _
    unfold lastClose
    rw [ih]

theorem tagGroup_at {b i m : List Char} (hb : ∀ c ∈ b, isSpace c = true) (hi : i.dropWhile isSpace ≠ []) (hm : ∀ c ∈ m, c ≠ ']') (ho : methodOk m = true) :
    tagGroup (b ++ '[' :: (i ++ ']' :: m)) = some (i.dropWhile isSpace) := by
  unfold tagGroup
  rw [dropWhile_all isSpace b _ hb, dropWhile_none isSpace '[' _ (by decide)]
  show (match lastClose (i ++ ']' :: m) with
    | none => none
    | some i => if i.dropWhile isSpace = [] then i.getLast?.map (fun c => [c]) else some (i.dropWhile isSpace)) = _
  rw [lastClose_at hm ho]
  exact if_neg hi

theorem blank_isSpace {c : Char} (h : c = ' ' ∨ c = '\t') : isSpace c = true := by
  rcases h with rfl | rfl <;> decide

theorem documented_chars : ∀ t ∈ documented, t.toList ≠ [] ∧ ∀ c ∈ t.toList, c ≠ ',' ∧ c ≠ ':' ∧ c ≠ ']' ∧ isSpace c = false := by decide +kernel

theorem commas_split : ∀ {ts : List String}, ts ≠ [] → (∀ t ∈ ts, t ∈ documented) → split ',' (commas ts) = ts.map String.toList
  | [], h, _ => absurd rfl h
  | [t], _, hd => by
    show split ',' t.toList = [t.toList]
    exact split_nil_sep _ _ (fun c hc => ((documented_chars t (hd t (by simp))).2 c hc).1)
  | t :: u :: r, _, hd => by
    show split ',' (t.toList ++ ',' :: commas (u :: r)) = _
    rw [split_cons_sep _ _ _ (fun c hc => ((documented_chars t (hd t (by simp))).2 c hc).1),
      commas_split (by simp) (fun x hx => hd x (List.mem_cons_of_mem _ hx))]
    rfl

theorem commas_chars : ∀ {ts : List String}, (∀ t ∈ ts, t ∈ documented) → ∀ c ∈ commas ts, c ≠ ':' ∧ c ≠ ']'
  | [], _, c, hc => by exact absurd hc (by simp [commas])
  | [t], hd, c, hc => by
    have := (documented_chars t (hd t (by simp))).2 c hc
    exact ⟨this.2.1, this.2.2.1⟩
  | t :: u :: r, hd, c, hc => by
    rcases List.mem_append.1 (show c ∈ t.toList ++ ',' :: commas (u :: r) from hc) with h | h
    · have := (documented_chars t (hd t (by simp))).2 c h
      exact ⟨this.2.1, this.2.2.1⟩
    · rcases List.mem_cons.1 h with rfl | h
      · decide
      · exact commas_chars (fun x hx => hd x (List.mem_cons_of_mem _ hx)) c h

theorem commas_head {ts : List String} (hn : ts ≠ []) (hd : ∀ t ∈ ts, t ∈ documented) : (commas ts).dropWhile isSpace = commas ts ∧ commas ts ≠ [] := by
  have key : ∀ (t : String) (r : List Char), t ∈ documented → (t.toList ++ r).dropWhile isSpace = t.toList ++ r ∧ t.toList ++ r ≠ [] := by
    intro t r ht
    obtain ⟨h1, h2⟩ := documented_chars t ht
    cases h : t.toList with
    | nil => exact absurd h h1
    | cons c l =>
      rw [List.cons_append, dropWhile_none isSpace c _ (h2 c (by rw [h]; simp)).2.2.2]
      exact ⟨rfl, by simp⟩
  cases ts with
  | nil => exact absurd rfl hn
  | cons t r =>
    cases r with
    | nil => have := key t [] (hd t (by simp)); rwa [List.append_nil] at this
    | cons u r => exact key t (',' :: commas (u :: r)) (hd t (by simp))

/-! ## The documented requests -/

/-- The method of a request. -/
def word (r : Request) : List Char := if r.mail then "mail".toList else "exec".toList

theorem target_plain {r : Request} (h : r.Valid) : ∀ c ∈ r.target, c ≠ ':' ∧ c ≠ ']' := by
  obtain ⟨_, _, hm, he, _⟩ := h
  cases hr : r.mail with
  | true => exact hm hr
  | false => exact fun c hc => safe_plain ((safe_iff c).2 (he hr c hc))

theorem word_cases (r : Request) : word r = txt "mail" ∨ word r = txt "exec" := by
  unfold word
  cases r.mail
  · exact Or.inr rfl
  · exact Or.inl rfl

theorem word_plain (r : Request) : ∀ c ∈ word r, c ≠ ':' ∧ c ≠ ']' ∧ c ≠ '[' ∧ isSpace c = false := by
  rcases word_cases r with h | h <;> rw [h] <;> decide +kernel

theorem blanks_of {r : Request} (h : r.Valid) {b : List Char} (hb : ∀ c ∈ b, c ∈ r.blank0 ++ r.blank1 ++ r.blank2 ++ r.blank3) :
    ∀ c ∈ b, isSpace c = true := fun c hc => blank_isSpace (h.2.2.2.2 c (hb c hc))

theorem blank_plain {c : Char} (h : isSpace c = true) : c ≠ ':' ∧ c ≠ ']' ∧ c ≠ '[' := by
  refine ⟨?_, ?_, ?_⟩ <;> rintro rfl <;> exact absurd h (by decide)

/-- What is before the colon. -/
def front (r : Request) : List Char := r.blank0 ++ bracket r ++ word r ++ r.blank3

theorem text_eq (r : Request) : r.text = front r ++ ':' :: r.target := by
  unfold Request.text front word
  rfl

theorem front_plain {r : Request} (h : r.Valid) : ∀ c ∈ front r, c ≠ ':' := by
  intro c hc
  have hb : ∀ c, (c ∈ r.blank0 ∨ c ∈ r.blank1 ∨ c ∈ r.blank2 ∨ c ∈ r.blank3) → c ≠ ':' := by
    intro c hc
    have := blank_isSpace (h.2.2.2.2 c (by simp only [List.mem_append]; rcases hc with h | h | h | h <;> simp [h]))
    exact (blank_plain this).1
  unfold front at hc
  rcases List.mem_append.1 hc with hc | hc
  · rcases List.mem_append.1 hc with hc | hc
    · rcases List.mem_append.1 hc with hc | hc
      · exact hb c (Or.inl hc)
      · unfold bracket at hc
        cases ht : r.tags with
        | none => rw [ht] at hc; exact absurd hc (by simp)
        | some ts =>
          rw [ht] at hc
          rcases List.mem_cons.1 hc with rfl | hc
          · decide
          rcases List.mem_append.1 hc with hc | hc
          · rcases List.mem_append.1 hc with hc | hc
            · exact hb c (Or.inr (Or.inl hc))
            · exact (commas_chars (h.1 ts ht).2 c hc).1
          · rcases List.mem_cons.1 hc with rfl | hc
            · decide
            · exact hb c (Or.inr (Or.inr (Or.inl hc)))
    · exact (word_plain r c hc).1
  · exact hb c (Or.inr (Or.inr (Or.inr hc)))

theorem occurs_unique {r : Request} (h : r.Valid) {w a : List Char} (ho : Occurs w r.text a) :
    a = r.target ∧ ∃ p bl, front r = p ++ w ++ bl ∧ ∀ c ∈ bl, isSpace c = true := by
  obtain ⟨p, bl, h1, h2, _⟩ := ho
  rw [text_eq] at h1
  obtain ⟨h3, h4⟩ := one_colon (front_plain h) (fun c hc => (target_plain h c hc).1) h1
  exact ⟨h4.symm, p, bl, h3, h2⟩

theorem blank3_space {r : Request} (h : r.Valid) : ∀ c ∈ r.blank3, isSpace c = true :=
  blanks_of h (fun c hc => by simp [hc])

theorem no_mail {r : Request} (h : r.Valid) (hr : r.mail = false) {a : List Char} : ¬ Occurs (txt "mail") r.text a := by
  intro ho
  obtain ⟨_, p, bl, h1, h2⟩ := occurs_unique h ho
  have hw : word r = ['e', 'x', 'e'] ++ ['c'] := by unfold word; rw [hr]; decide +kernel
  have hm : txt "mail" = ['m', 'a', 'i'] ++ ['l'] := by decide +kernel
  unfold front at h1
  rw [hw, hm, ← List.append_assoc, ← List.append_assoc p] at h1
  exact absurd (last_unblank (blank3_space h) h2 (by decide) (by decide) h1) (by decide)

theorem no_exec {r : Request} (h : r.Valid) (hr : r.mail = true) {a : List Char} : ¬ Occurs (txt "exec") r.text a := by
  intro ho
  obtain ⟨_, p, bl, h1, h2⟩ := occurs_unique h ho
  have hw : word r = ['m', 'a', 'i'] ++ ['l'] := by unfold word; rw [hr]; decide +kernel
  have hm : txt "exec" = ['e', 'x', 'e'] ++ ['c'] := by decide +kernel
  unfold front at h1
  rw [hw, hm, ← List.append_assoc, ← List.append_assoc p] at h1
  exact absurd (last_unblank (blank3_space h) h2 (by decide) (by decide) h1) (by decide)

theorem text_tail (r : Request) : r.text = (r.blank0 ++ bracket r) ++ (word r ++ r.blank3 ++ ':' :: r.target) := by
  rw [text_eq]; unfold front; simp

theorem method_request {r : Request} (h : r.Valid) {b : List Char} (hb : ∀ c ∈ b, isSpace c = true) :
    methodOk (b ++ (word r ++ r.blank3 ++ ':' :: r.target)) = true := by
  have hd : (word r ++ r.blank3 ++ ':' :: r.target).dropWhile isSpace = word r ++ r.blank3 ++ ':' :: r.target := by
    have : ∃ c l, word r = c :: l ∧ isSpace c = false := by
      rcases word_cases r with hw | hw
      · exact ⟨'m', ['a', 'i', 'l'], by rw [hw]; decide +kernel, by decide⟩
      · exact ⟨'e', ['x', 'e', 'c'], by rw [hw]; decide +kernel, by decide⟩
    obtain ⟨c, l, hw, hc⟩ := this
    rw [hw]
    exact dropWhile_none isSpace c _ hc
  unfold methodOk
  rw [dropWhile_all isSpace b _ hb, hd]
  rcases word_cases r with hw | hw
  · rw [hw, here_at (blank3_space h) h.2.1]; rfl
  · rw [hw, here_at (blank3_space h) h.2.1]; simp

theorem tail_close {r : Request} (h : r.Valid) : ∀ c ∈ r.blank2 ++ (word r ++ r.blank3 ++ ':' :: r.target), c ≠ ']' := by
  intro c hc
  simp only [List.mem_append, List.mem_cons] at hc
  rcases hc with hc | (hc | hc) | rfl | hc
  · exact (blank_plain (blanks_of h (fun x hx => by simp [hx]) c hc)).2.1
  · exact (word_plain r c hc).2.1
  · exact (blank_plain (blank3_space h c hc)).2.1
  · decide
  · exact (target_plain h c hc).2

theorem tagGroup_request {r : Request} (h : r.Valid) : tagGroup r.text = r.tags.map commas := by
  have h0 : ∀ c ∈ r.blank0, isSpace c = true := blanks_of h (fun c hc => by simp [hc])
  rw [text_tail]
  unfold bracket
  cases ht : r.tags with
  | none =>
    dsimp only
    unfold tagGroup
    rw [List.append_nil, dropWhile_all isSpace _ _ h0]
    rcases word_cases r with hw | hw <;> rw [hw]
    · rw [show txt "mail" = 'm' :: ['a', 'i', 'l'] by decide +kernel]
      rfl
    · rw [show txt "exec" = 'e' :: ['x', 'e', 'c'] by decide +kernel]
      rfl
  | some ts =>
    obtain ⟨hn, hd⟩ := h.1 ts ht
    have h1 : (r.blank1 ++ commas ts).dropWhile isSpace = commas ts := by
      rw [dropWhile_all isSpace _ _ (blanks_of h (fun c hc => by simp [hc])), (commas_head hn hd).1]
    have h2 := tagGroup_at (b := r.blank0) (i := r.blank1 ++ commas ts) h0 (by rw [h1]; exact (commas_head hn hd).2) (tail_close h)
      (method_request h (blanks_of h (fun c hc => by simp [hc])))
    rw [h1] at h2
    rw [show r.blank0 ++ '[' :: (r.blank1 ++ commas ts ++ ']' :: r.blank2) ++ (word r ++ r.blank3 ++ ':' :: r.target) =
      r.blank0 ++ '[' :: (r.blank1 ++ commas ts ++ ']' :: (r.blank2 ++ (word r ++ r.blank3 ++ ':' :: r.target))) by simp]
    exact h2

theorem text_ne (r : Request) : r.text ≠ [] := by
  rw [text_eq]; simp

/-- **C87.** A request of the manual is accepted. -/
theorem request_accepted {r : Request} (h : r.Valid) : check r.text = none := by
  unfold check
  rw [if_neg, if_neg]
  · rintro ⟨_, h1, h2⟩
    rw [tagGroup_request h] at h2
    cases ht : r.tags with
    | some ts => rw [ht] at h2; exact absurd h2 (by simp)
    | none =>
      have hm := method_request h (b := r.blank0) (blanks_of h (fun c hc => by simp [hc]))
      rw [text_tail] at h1
      unfold bracket at h1
      rw [ht] at h1
      dsimp only at h1
      rw [List.append_nil, hm] at h1
      exact absurd h1 (by decide)
  · rintro ⟨_, h1, h2⟩
    cases hr : r.mail with
    | true =>
      obtain ⟨a, ha⟩ := hasExec_occurs h1
      exact no_exec h hr ha
    | false =>
      refine absurd h2 ?_
      rw [text_tail]
      apply execCmd_append
      apply execCmd_here (a := r.target) _ ((command_iff _).1 (h.2.2.2.1 hr))
      rw [show word r = txt "exec" by unfold word; rw [hr]; rfl]
      exact here_at (blank3_space h) h.2.1

/-- **C87.** Without brackets the tags are the documented ones, and no other. -/
theorem tags_default {r : Request} (h : r.Valid) (hr : r.tags = none) : tags r.text = documented.map txt := by
  unfold tags
  rw [tagGroup_request h, hr]
  decide +kernel

theorem tags_request {r : Request} (h : r.Valid) (s : String) (hs : s ∈ documented) : (txt s ∈ tags r.text ↔ r.Asks s) := by
  unfold tags
  rw [tagGroup_request h]
  unfold Request.Asks
  cases ht : r.tags with
  | none =>
    simp only [Option.map_none, reduceCtorEq, false_implies, implies_true, iff_true]
    revert s
    decide +kernel
  | some ts =>
    obtain ⟨hn, hd⟩ := h.1 ts ht
    simp only [Option.map_some, Option.some.injEq, forall_eq']
    rw [commas_split hn hd, List.mem_map]
    constructor
    · rintro ⟨t, h1, h2⟩
      have : t = s := String.toList_injective h2
      rwa [← this]
    · exact fun h1 => ⟨s, h1, rfl⟩

/-- **C87.** A request of the manual sends, for each state that it asks, the mail or the command that it describes, and nothing for the other states. -/
theorem request_sends {r : Request} (h : r.Valid) (s : String) (hs : s ∈ documented) :
    (r.Asks s → action r.text (txt s) = r.sent) ∧ (¬ r.Asks s → action r.text (txt s) = .nothing) := by
  constructor
  · intro ha
    unfold action
    rw [if_neg (text_ne r), if_pos ((tags_request h s hs).2 ha)]
    unfold Request.sent
    cases hr : r.mail with
    | true =>
      have h1 : mailTo r.text ≠ none := by
        rw [text_tail]
        apply mailTo_append
        apply mailTo_here (a := r.target)
        rw [show word r = txt "mail" by unfold word; rw [hr]; rfl]
        exact here_at (blank3_space h) h.2.1
      cases h2 : mailTo r.text with
      | none => exact absurd h2 h1
      | some a =>
        rw [(occurs_unique h (mailTo_occurs h2)).1]
        rfl
    | false =>
      have h1 : execCmd r.text ≠ none := by
        rw [text_tail]
        apply execCmd_append
        apply execCmd_here (a := r.target) _ ((command_iff _).1 (h.2.2.2.1 hr))
        rw [show word r = txt "exec" by unfold word; rw [hr]; rfl]
        exact here_at (blank3_space h) h.2.1
      have h0 : mailTo r.text = none := by
        cases h2 : mailTo r.text with
        | none => rfl
        | some a => exact absurd (mailTo_occurs h2) (no_mail h hr)
      rw [h0]
      cases h2 : execCmd r.text with
      | none => exact absurd h2 h1
      | some a =>
        rw [(occurs_unique h (execCmd_occurs h2).1).1]
        rfl
  · intro ha
    unfold action
    rw [if_neg (text_ne r), if_neg (fun hc => ha ((tags_request h s hs).1 hc))]

/-- **C87.** Whatever the column contains (accepted or not), a command that is executed is a non-empty part of it, after a colon, and has only the allowed characters. -/
theorem executed_is_safe {notify state cmd : List Char} (h : action notify state = .exec cmd) :
    Command cmd ∧ cmd ≠ [] ∧ ∃ p, notify = p ++ ':' :: cmd := by
  unfold action at h
  split at h
  · exact absurd h (by simp)
  split at h
  · split at h
    · exact absurd h (by simp)
    split at h
    · rename_i c hc
      obtain rfl := Action.exec.inj h
      obtain ⟨⟨p, bl, h1, _, h3⟩, h4⟩ := execCmd_occurs hc
      exact ⟨(command_iff _).2 h4, h3, p ++ txt "exec" ++ bl, h1⟩
    · exact absurd h (by simp)
  · exact absurd h (by simp)

/-- **C87.** A command with another character is refused with the code 16. -/
theorem insecure_refused {t : List Char} (ht : t ≠ []) (hc : ∀ c ∈ t, c ≠ ':') (hn : ¬ Command t) : check (txt "exec:" ++ t) = some 16 := by
  have e : txt "exec:" ++ t = txt "exec" ++ [] ++ ':' :: t := by
    rw [show txt "exec:" = txt "exec" ++ [':'] by decide +kernel]; simp
  unfold check
  rw [if_pos]
  refine ⟨by rw [e]; simp, ?_, ?_⟩
  · have h1 := here_at (w := txt "exec") (bl := []) (a := t) (by simp) ht
    rw [← e] at h1
    have h2 : txt "exec:" ++ t = 'e' :: (txt "xec:" ++ t) := by
      rw [show txt "exec:" = 'e' :: txt "xec:" by decide +kernel]; rfl
    rw [h2] at h1 ⊢
    unfold hasExec
    rw [h1]; simp
  · cases h1 : execCmd (txt "exec:" ++ t) with
    | none => rfl
    | some a =>
      obtain ⟨⟨p, bl, h2, _, _⟩, h3⟩ := execCmd_occurs h1
      rw [e] at h2
      have := (one_colon (q := txt "exec" ++ []) (by decide +kernel) hc h2).2
      exact absurd ((command_iff t).2 (by rw [this]; exact h3)) hn

/-- The empty option is accepted and sends nothing; a text that is not a notification is refused. -/
theorem no_request : check [] = none ∧ (∀ s, action [] s = .nothing) ∧ check (txt "me@x.org") = some (-6) := by
  refine ⟨by decide +kernel, fun s => rfl, by decide +kernel⟩

/-- The hypotheses are met by the examples of the manual. -/
theorem request_example :
    Request.Valid ⟨some ["END", "ERROR"], true, txt "name@domain.com", [], [], [], []⟩ ∧
    Request.text ⟨some ["END", "ERROR"], true, txt "name@domain.com", [], [], [], []⟩ = txt "[END,ERROR]mail:name@domain.com" ∧
    Request.Valid ⟨none, false, txt "/path/to/script arg1 arg2", [], [], [], []⟩ ∧
    Request.text ⟨none, false, txt "/path/to/script arg1 arg2", [], [], [], []⟩ = txt "exec:/path/to/script arg1 arg2" ∧
    Request.Valid ⟨some ["INFO"], false, txt "/bin/x", txt " ", txt " ", txt "  ", txt " "⟩ ∧
    Request.text ⟨some ["INFO"], false, txt "/bin/x", txt " ", txt " ", txt "  ", txt " "⟩ = txt " [ INFO]  exec :/bin/x" := by
  have v : ∀ r : Request, (r.tags.getD ["END"] ≠ [] ∧ (∀ t ∈ r.tags.getD ["END"], t ∈ documented)) → r.target ≠ [] →
      (∀ c ∈ r.target, c ≠ ':' ∧ c ≠ ']') → (r.mail = true ∨ r.target.all safe = true) →
      (∀ c ∈ r.blank0 ++ r.blank1 ++ r.blank2 ++ r.blank3, c = ' ' ∨ c = '\t') → r.Valid := by
    intro r h1 h2 h3 h4 h5
    refine ⟨?_, h2, fun _ => h3, ?_, h5⟩
    · intro ts hts
      rw [hts] at h1
      exact h1
    · intro hr
      rcases h4 with h4 | h4
      · rw [hr] at h4; exact absurd h4 (by decide)
      · exact (command_iff _).2 h4
  refine ⟨v _ ?_ ?_ ?_ ?_ ?_, by decide +kernel, v _ ?_ ?_ ?_ ?_ ?_, by decide +kernel, v _ ?_ ?_ ?_ ?_ ?_, by decide +kernel⟩ <;> decide +kernel

/-! ## The tags as they are read -/

/-- What the brackets mean: any text is accepted between them, and the notified states are the pieces between its commas, with their blanks. -/
theorem bracket_meaning {g x : List Char} (hg : g.dropWhile isSpace = g) (hn : g ≠ []) (hc : ∀ c ∈ g, c ≠ ':') (hx : x ≠ [])
    (hp : ∀ c ∈ x, c ≠ ':' ∧ c ≠ ']') (s : List Char) :
    check ('[' :: (g ++ txt "]mail:" ++ x)) = none ∧
    (s ∈ split ',' g → action ('[' :: (g ++ txt "]mail:" ++ x)) s = .mail x) ∧
    (s ∉ split ',' g → action ('[' :: (g ++ txt "]mail:" ++ x)) s = .nothing) := by
  have e1 : '[' :: (g ++ txt "]mail:" ++ x) = [] ++ '[' :: (g ++ ']' :: (txt "mail" ++ [] ++ ':' :: x)) := by
    rw [show txt "]mail:" = ']' :: (txt "mail" ++ [':']) by decide +kernel]; simp
  have e2 : '[' :: (g ++ txt "]mail:" ++ x) = ('[' :: (g ++ txt "]mail")) ++ ':' :: x := by
    rw [show txt "]mail:" = txt "]mail" ++ [':'] by decide +kernel]; simp
  have hm : methodOk (txt "mail" ++ [] ++ ':' :: x) = true := by
    have h1 : (txt "mail" ++ [] ++ ':' :: x).dropWhile isSpace = txt "mail" ++ [] ++ ':' :: x := by
      rw [show txt "mail" = 'm' :: ['a', 'i', 'l'] by decide +kernel]
      exact dropWhile_none isSpace 'm' _ (by decide)
    unfold methodOk
    rw [h1, here_at (w := txt "mail") (bl := []) (by simp) hx]
    rfl
  have ht : tagGroup ('[' :: (g ++ txt "]mail:" ++ x)) = some g := by
    rw [e1, tagGroup_at (by simp) (by rw [hg]; exact hn) _ hm, hg]
    intro c hc
    simp only [List.append_nil, List.mem_append, List.mem_cons] at hc
    rcases hc with hc | rfl | hc
    · revert c; decide +kernel
    · decide
    · exact (hp c hc).2
  have hq : ∀ c ∈ '[' :: (g ++ txt "]mail"), c ≠ ':' := by
    intro c hc'
    rcases List.mem_cons.1 hc' with rfl | hc'
    · decide
    rcases List.mem_append.1 hc' with hc' | hc'
    · exact hc c hc'
    · exact (show ∀ c ∈ txt "]mail", c ≠ ':' by decide +kernel) c hc'
  have hun : ∀ {w a}, Occurs w ('[' :: (g ++ txt "]mail:" ++ x)) a → x = a ∧ ∃ p bl, '[' :: (g ++ txt "]mail") = p ++ w ++ bl ∧ ∀ c ∈ bl, isSpace c = true := by
    rintro w a ⟨p, bl, h1, h2, _⟩
    rw [e2] at h1
    obtain ⟨h3, h4⟩ := one_colon hq (fun c hc => (hp c hc).1) h1
    exact ⟨h4, p, bl, h3, h2⟩
  refine ⟨?_, ?_, ?_⟩
  · unfold check
    rw [if_neg, if_neg]
    · rintro ⟨_, _, h2⟩
      rw [ht] at h2
      exact absurd h2 (by simp)
    · rintro ⟨_, h1, _⟩
      obtain ⟨a, ha⟩ := hasExec_occurs h1
      obtain ⟨_, p, bl, h3, h4⟩ := hun ha
      rw [show txt "]mail" = [']', 'm', 'a', 'i'] ++ ['l'] by decide +kernel, show txt "exec" = ['e', 'x', 'e'] ++ ['c'] by decide +kernel] at h3
      have h5 : ('[' :: (g ++ [']', 'm', 'a', 'i'])) ++ ['l'] ++ [] = (p ++ ['e', 'x', 'e']) ++ ['c'] ++ bl := by
        rw [← List.append_assoc p] at h3
        rw [← h3]; simp
      exact absurd (last_unblank (by simp) h4 (by decide) (by decide) h5) (by decide)
  · intro hs
    unfold action
    rw [if_neg (by simp), if_pos (by unfold tags; rw [ht]; exact hs)]
    cases h2 : mailTo ('[' :: (g ++ txt "]mail:" ++ x)) with
    | none =>
      exfalso
      revert h2
      rw [show '[' :: (g ++ txt "]mail:" ++ x) = ('[' :: (g ++ [']'])) ++ (txt "mail" ++ [] ++ ':' :: x) by rw [e1]; simp]
      exact mailTo_append _ (mailTo_here (here_at (by simp) hx))
    | some a =>
      rw [(hun (mailTo_occurs h2)).1]
  · intro hs
    unfold action
    rw [if_neg (by simp), if_neg (by unfold tags; rw [ht]; exact hs)]

/-- **C87, violated.** With a blank after the comma (or before the bracket), or with a tag that does not exist, the option is accepted and the state is never notified. -/
theorem tags_violated {x : List Char} (hx : x ≠ []) (hp : ∀ c ∈ x, c ≠ ':' ∧ c ≠ ']') :
    (check (txt "[RUNNING, END]mail:" ++ x) = none ∧ action (txt "[RUNNING, END]mail:" ++ x) (txt "END") = .nothing) ∧
    (check (txt "[END ]mail:" ++ x) = none ∧ action (txt "[END ]mail:" ++ x) (txt "END") = .nothing) ∧
    (check (txt "[end]mail:" ++ x) = none ∧ ∀ s ∈ documented, action (txt "[end]mail:" ++ x) (txt s) = .nothing) := by
  have key := fun (g : List Char) h1 h2 h3 s => bracket_meaning (g := g) (x := x) h1 h2 h3 hx hp s
  refine ⟨?_, ?_, ?_⟩
  · have e : txt "[RUNNING, END]mail:" ++ x = '[' :: (txt "RUNNING, END" ++ txt "]mail:" ++ x) := by
      rw [show txt "[RUNNING, END]mail:" = '[' :: (txt "RUNNING, END" ++ txt "]mail:") by decide +kernel]; simp
    rw [e]
    obtain ⟨h1, _, h3⟩ := key (txt "RUNNING, END") (by decide +kernel) (by decide +kernel) (by decide +kernel) (txt "END")
    exact ⟨h1, h3 (by decide +kernel)⟩
  · have e : txt "[END ]mail:" ++ x = '[' :: (txt "END " ++ txt "]mail:" ++ x) := by
      rw [show txt "[END ]mail:" = '[' :: (txt "END " ++ txt "]mail:") by decide +kernel]; simp
    rw [e]
    obtain ⟨h1, _, h3⟩ := key (txt "END ") (by decide +kernel) (by decide +kernel) (by decide +kernel) (txt "END")
    exact ⟨h1, h3 (by decide +kernel)⟩
  · have e : txt "[end]mail:" ++ x = '[' :: (txt "end" ++ txt "]mail:" ++ x) := by
      rw [show txt "[end]mail:" = '[' :: (txt "end" ++ txt "]mail:") by decide +kernel]; simp
    rw [e]
    refine ⟨(key (txt "end") (by decide +kernel) (by decide +kernel) (by decide +kernel) []).1, fun s hs => ?_⟩
    refine (key (txt "end") (by decide +kernel) (by decide +kernel) (by decide +kernel) (txt s)).2.2 ?_
    revert s
    decide +kernel

/-! ## A notification that fails -/

theorem notified_jobs (w : World) (db : DB) (jid : Nat) (s : List Char) : (notified w db jid s).jobs = db.jobs := by
  unfold notified
  split
  · rfl
  · rfl
  · split <;> rfl

/-- **C87.** What a notification records: the mail is recorded before it is sent, the command after it worked; nothing else. -/
theorem notified_exact (w : World) (db : DB) (jid : Nat) (s : List Char) :
    (∀ a, action (w.notify jid) s = .mail a → notified w db jid s = addEvent db "USER_MAIL_NOTIFICATION" jid) ∧
    (∀ c, action (w.notify jid) s = .exec c → w.works jid s = true → notified w db jid s = addEvent db "USER_EXEC_NOTIFICATION" jid) ∧
    (∀ c, action (w.notify jid) s = .exec c → w.works jid s = false → notified w db jid s = db) ∧
    (action (w.notify jid) s = .nothing → notified w db jid s = db) := by
  unfold notified
  refine ⟨?_, ?_, ?_, ?_⟩
  · intro a h; rw [h]
  · intro c h hw; rw [h]; dsimp only; rw [if_pos hw]
  · intro c h hw; rw [h]; dsimp only; rw [if_neg (by rw [hw]; decide)]
  · intro h; rw [h]

theorem notified_job? (w : World) (db : DB) (jid : Nat) (s : List Char) (i : Nat) : (notified w db jid s).job? i = db.job? i := by
  unfold DB.job?
  rw [notified_jobs]

/-- **C87.** When the notification is not asked or works, the end of a job is followed by the update of the priorities, the move of its rows to the log and the call of the
scheduler, and the database is the one of `set_job_state` with the event of the notification. -/
theorem end_complete {w : World} {db : DB} {jid : Nat} {j : JobRow} {st : String} {tag : String} (hj : db.job? jid = some j) (ha : j.state ∈ aliveStates)
    (hst : (st = "Terminated" ∧ tag = "END") ∨ (st = "Error" ∧ tag = "ERROR")) (hok : action (w.notify jid) (txt tag) = .nothing ∨ w.works jid (txt tag) = true)
    (now : Int) :
    setState w db now jid st = (notified w (setJobState db now jid st) jid (txt tag), [.priorityStop, .logJob, .chState], false) := by
  have hne : st ∉ aliveStates := by rcases hst with ⟨rfl, _⟩ | ⟨rfl, _⟩ <;> decide
  have hne' : j.state ≠ st := fun hc => hne (hc ▸ ha)
  have hm : mayBecome j st = true := by
    unfold mayBecome
    rw [decide_eq_true_eq]
    exact (List.mem_erase_of_ne hne').2 ha
  have ht : tagOf st = some (txt tag) := by
    rcases hst with ⟨rfl, rfl⟩ | ⟨rfl, rfl⟩
    · simp [tagOf]
    · simp [tagOf]
  have hr : raises w jid (txt tag) = false := by
    unfold raises
    rcases hok with h | h
    · rw [h]; rfl
    · rw [h]; simp
  unfold setState
  rw [hj]
  dsimp only
  rw [if_pos hm, ht]
  dsimp only
  rw [hr, if_neg (by simp), if_pos (by rcases hst with ⟨rfl, _⟩ | ⟨rfl, _⟩ <;> simp)]

/-- **C87.** Each change of state of a job is notified with its tag of the manual; the other states have no notification. -/
theorem state_notified {w : World} {db : DB} {jid : Nat} {j : JobRow} {st : String} (hj : db.job? jid = some j) (hm : mayBecome j st = true) (now : Int) :
    (∀ tag, (st, tag) ∈ stateTags → (setState w db now jid st).1 = notified w (setJobState db now jid st) jid (txt tag) ∧
      (raises w jid (txt tag) = false → (setState w db now jid st).2.2 = false)) ∧
    ((∀ tag, (st, tag) ∉ stateTags) → setState w db now jid st = (setJobState db now jid st, [], false)) := by
  constructor
  · intro tag ht
    have : tagOf st = some (txt tag) := by
      simp only [stateTags, List.mem_cons, Prod.mk.injEq, List.not_mem_nil, or_false] at ht
      rcases ht with ⟨rfl, rfl⟩ | ⟨rfl, rfl⟩ | ⟨rfl, rfl⟩ | ⟨rfl, rfl⟩ | ⟨rfl, rfl⟩ <;> simp [tagOf]
    unfold setState
    rw [hj]
    dsimp only
    rw [if_pos hm, this]
    dsimp only
    constructor
    · split <;> rfl
    · intro hr; rw [hr, if_neg (by simp)]
  · intro ht
    have : tagOf st = none := by
      unfold tagOf
      rw [if_neg (fun e => ht "SUSPENDED" (by simp [stateTags, e])), if_neg (fun e => ht "RESUMING" (by simp [stateTags, e])),
        if_neg (fun e => ht "RUNNING" (by simp [stateTags, e])), if_neg (fun e => ht "END" (by simp [stateTags, e])), if_neg (fun e => ht "ERROR" (by simp [stateTags, e]))]
    unfold setState
    rw [hj]
    dsimp only
    rw [if_pos hm, this]

/-- **C87, violated.** When the mail server or the command of the user fails, the exception leaves `set_job_state`: the job is in its final state but its resources keep
the priority of a running job, its rows stay out of the log and the scheduler is not called; and no later call does it, because the job is already ended. -/
theorem end_violated {w : World} {db : DB} {jid : Nat} {j : JobRow} {st : String} {tag : String} (hj : db.job? jid = some j) (ha : j.state ∈ aliveStates)
    (hst : (st = "Terminated" ∧ tag = "END") ∨ (st = "Error" ∧ tag = "ERROR")) (hask : action (w.notify jid) (txt tag) ≠ .nothing)
    (hbad : w.works jid (txt tag) = false) (now : Int) :
    (setState w db now jid st).2 = ([], true) ∧ ((setState w db now jid st).1.job? jid).map JobRow.state = some st ∧
    ∀ w' now' st', setState w' (setState w db now jid st).1 now' jid st' = ((setState w db now jid st).1, [], false) := by
  have hne : st ∉ aliveStates := by rcases hst with ⟨rfl, _⟩ | ⟨rfl, _⟩ <;> decide
  have hne' : j.state ≠ st := fun hc => hne (hc ▸ ha)
  have hm : mayBecome j st = true := by
    unfold mayBecome
    rw [decide_eq_true_eq]
    exact (List.mem_erase_of_ne hne').2 ha
  have ht : tagOf st = some (txt tag) := by
    rcases hst with ⟨rfl, rfl⟩ | ⟨rfl, rfl⟩
    · simp [tagOf]
    · simp [tagOf]
  have hr : raises w jid (txt tag) = true := by
    unfold raises
    rw [hbad]
    simp [hask]
  have e : setState w db now jid st = (notified w (setJobState db now jid st) jid (txt tag), [], true) := by
    unfold setState
    rw [hj]
    dsimp only
    rw [if_pos hm, ht]
    dsimp only
    rw [if_pos hr]
  have hjob : (setState w db now jid st).1.job? jid = some (withState st j) := by
    rw [e]
    dsimp only
    rw [notified_job?, Oar.Bipbip.job?_setJobState hj ha now hne']
  refine ⟨by rw [e], by rw [hjob]; rfl, ?_⟩
  intro w' now' st'
  have hf : mayBecome (withState st j) st' = false := by
    unfold mayBecome
    rw [decide_eq_false_iff_not]
    exact fun hc => hne (List.mem_of_mem_erase hc)
  generalize (setState w db now jid st).1 = d at hjob
  unfold setState
  rw [hjob]
  dsimp only
  rw [if_neg (by rw [hf]; simp)]

theorem ncsEventN_raise {w : World} {env : Env} {db : DB} {ev : Event} (ht : ev.type = "FRAG_JOB_REQUEST") (hj : (db.job? ev.jid).isSome = true)
    (hask : action (w.notify ev.jid) (txt "INFO") ≠ .nothing) (hbad : w.works ev.jid (txt "INFO") = false) :
    ncsEventN w env db ev = (notified w db ev.jid (txt "INFO"), none) := by
  unfold ncsEventN
  rw [if_pos ⟨ht, hj, by unfold raises; rw [hbad]; simp [hask]⟩]

theorem notified_events (w : World) (db : DB) (jid : Nat) (s : List Char) : db.events <+: (notified w db jid s).events := by
  unfold notified
  split
  · exact List.prefix_refl _
  · exact List.prefix_append _ _
  · split
    · exact List.prefix_append _ _
    · exact List.prefix_refl _

/-- **C87, violated.** When the notification of a deletion request fails, the exception stops the module before the request is marked as treated: each later run stops at
the same request. As long as it fails, no later event of any job is treated, no resource changes its state, and no job changes. -/
theorem deletion_violated {w : World} {db : DB} {pre post : List Event} {ev : Event} (he : db.events = pre ++ ev :: post)
    (hpre : ∀ e ∈ pre, e.toCheck = false) (hc : ev.toCheck = true) (ht : ev.type = "FRAG_JOB_REQUEST") (hj : (db.job? ev.jid).isSome = true)
    (hask : action (w.notify ev.jid) (txt "INFO") ≠ .nothing) (hbad : w.works ev.jid (txt "INFO") = false) (envs : List Env) :
    (runs w envs db).jobs = db.jobs ∧ db.events <+: (runs w envs db).events ∧ ∀ env, (ncsRunN w env (runs w envs db)).2 = none := by
  have step : ∀ {d : DB} {env : Env} {post' : List Event}, d.events = pre ++ ev :: post' → d.jobs = db.jobs →
      ncsRunN w env d = (notified w d ev.jid (txt "INFO"), none) := by
    intro d env post' h1 h2
    have hf : d.events.filter (fun e => e.toCheck) = ev :: post'.filter (fun e => e.toCheck) := by
      rw [h1, List.filter_append, List.filter_eq_nil_iff.2 (fun e h => by rw [hpre e h]; simp), List.nil_append, List.filter_cons, if_pos hc]
    have hj' : (d.job? ev.jid).isSome = true := by
      unfold DB.job? at hj ⊢
      rw [h2]; exact hj
    unfold ncsRunN
    rw [hf]
    unfold ncsLoopN
    rw [ncsEventN_raise ht hj' hask hbad]
  have all : ∀ (envs : List Env) (d : DB) (post' : List Event), d.events = pre ++ ev :: post' → d.jobs = db.jobs →
      (runs w envs d).jobs = db.jobs ∧ d.events <+: (runs w envs d).events ∧ ∀ env, (ncsRunN w env (runs w envs d)).2 = none := by
    intro envs
    induction envs with
    | nil =>
      intro d post' h1 h2
      exact ⟨h2, List.prefix_refl _, fun env => by rw [show runs w [] d = d from rfl, step h1 h2]⟩
    | cons env envs ih =>
      intro d post' h1 h2
      have hp := notified_events w d ev.jid (txt "INFO")
      obtain ⟨q, hq⟩ := hp
      have := ih (notified w d ev.jid (txt "INFO")) (post' ++ q) (by rw [← hq, h1]; simp) (by rw [notified_jobs]; exact h2)
      rw [show runs w (env :: envs) d = runs w envs (ncsRunN w env d).1 from rfl, step h1 h2]
      exact ⟨this.1, List.IsPrefix.trans ⟨q, hq⟩ this.2.1, this.2.2⟩
  exact all envs db post he rfl

/-- The jobs without notification of the deletions are treated as the model of the module says (C34, C35). -/
theorem ncsRunN_plain {w : World} (hw : ∀ i, action (w.notify i) (txt "INFO") = .nothing) {env : Env} {db d : DB} {hs : List (String × Bool)}
    (h : ncsEvents env db = some (d, hs)) : ncsRunN w env db = (d, some hs) := by
  have hn : ∀ db i, notified w db i (txt "INFO") = db := by
    intro db i
    unfold notified
    rw [hw i]
  have one : ∀ db ev, ncsEventN w env db ev = match ncsEvent env db ev with
      | none => (db, none)
      | some (db', hs) => (db', some hs) := by
    intro db ev
    unfold ncsEventN
    rw [if_neg (by rintro ⟨_, _, h⟩; unfold raises at h; rw [hw] at h; simp at h), hn, ite_self]
    rfl
  have loop : ∀ evs db d hs, ncsLoop env evs db = some (d, hs) → ncsLoopN w env evs db = (d, some hs) := by
    intro evs
    induction evs with
    | nil =>
      intro db d hs h
      unfold ncsLoop at h
      injection h with h
      injection h with h1 h2
      subst h1 h2
      rfl
    | cons ev evs ih =>
      intro db d hs h
      unfold ncsLoop at h
      unfold ncsLoopN
      rw [one]
      cases h1 : ncsEvent env db ev with
      | none => rw [h1] at h; exact absurd h (by simp)
      | some r =>
        obtain ⟨db', hs1⟩ := r
        rw [h1] at h
        dsimp only at h ⊢
        cases h2 : ncsLoop env evs db' with
        | none => rw [h2] at h; exact absurd h (by simp)
        | some r2 =>
          obtain ⟨db'', hs2⟩ := r2
          rw [h2] at h
          dsimp only at h
          injection h with h
          injection h with h3 h4
          rw [ih _ _ _ h2, ← h3, ← h4]
  exact loop _ _ _ _ h

/-- The hypotheses are met: the job 1 asks a mail for everything, the mail server is down, its user deletes it; the end of the job 2 is never treated. -/
theorem deletion_example :
    let w : World := ⟨fun i => if i = 1 then txt "mail:me@x.org" else [], fun _ _ => false⟩
    let db : DB := ⟨[{ id := 1, user := "u", state := "Running" }, { id := 2, user := "v", state := "Finishing" }], [], [],
      [⟨"FRAG_JOB_REQUEST", 1, true, []⟩, ⟨"SWITCH_INTO_TERMINATE_STATE", 2, true, []⟩], []⟩
    action (w.notify 1) (txt "INFO") = .mail (txt "me@x.org") ∧
    (∀ envs, (runs w envs db).job? 2 = db.job? 2 ∧ db.events <+: (runs w envs db).events) ∧
    (setState w db 10 1 "Terminated").2 = ([], true) ∧ (setState w db 10 2 "Terminated").2 = ([.priorityStop, .logJob, .chState], false) := by
  intro w db
  have ha : action (w.notify 1) (txt "INFO") = .mail (txt "me@x.org") := by decide +kernel
  refine ⟨ha, fun envs => ?_, ?_, ?_⟩
  · have := deletion_violated (w := w) (db := db) (pre := []) (ev := ⟨"FRAG_JOB_REQUEST", 1, true, []⟩) (post := [⟨"SWITCH_INTO_TERMINATE_STATE", 2, true, []⟩]) rfl
      (by simp) rfl rfl (by decide) (by rw [ha]; simp) rfl envs
    refine ⟨?_, this.2.1⟩
    unfold DB.job?
    rw [this.1]
  · exact (end_violated (w := w) (db := db) (jid := 1) (tag := "END") rfl (by decide) (Or.inl ⟨rfl, rfl⟩) (by decide +kernel) rfl 10).1
  · rw [end_complete (w := w) (db := db) (jid := 2) (tag := "END") rfl (by decide) (Or.inl ⟨rfl, rfl⟩) (Or.inl (by decide +kernel)) 10]

end Oar.Notify
