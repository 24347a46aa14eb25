import Verif.Ping
import Verif.ToolsProps
import Verif.ResourcesProps

/-!
# C77: test of the nodes
-/

namespace Oar.Ping

open Oar.Tools Oar.Res

/-! ## Specification -/

/-- A line of a text. -/
def IsLine (o l : List Char) : Prop :=
  '\n' ∉ l ∧ ∃ a b, o = a ++ l ++ b ∧ (a = [] ∨ ∃ a', a = a' ++ ['\n']) ∧ (b = [] ∨ ∃ b', b = '\n' :: b')

/-- A name the patterns can recognise. -/
def HostName (h : List Char) : Prop := h ≠ [] ∧ ∀ c ∈ h, isHost c = true

/-- A number. -/
def Number (d : List Char) : Prop := d ≠ [] ∧ ∀ c ∈ d, c.isDigit = true

/-- An address. -/
def Dotted (ip : List Char) : Prop :=
  ∃ a b c d, Number a ∧ Number b ∧ Number c ∧ Number d ∧ ip = a ++ '.' :: (b ++ '.' :: (c ++ '.' :: d))

/-- The line says that an address has an open port. -/
def Reports (l ip : List Char) : Prop :=
  ∃ s rest, l = txt "Host:" ++ s :: (ip ++ rest) ∧ isSp s = true ∧ Dotted ip ∧ (∀ c r, rest = c :: r → c.isDigit = false) ∧
    ∃ x y, rest = x ++ txt "/open/" ++ y

/-! ## Texts -/

theorem first_sep (c : Char) : ∀ o : List Char, c ∉ o ∨ ∃ a b, o = a ++ c :: b ∧ c ∉ a
  | [] => Or.inl (by simp)
  | x :: o => by
    by_cases hx : x = c
    · subst hx; exact Or.inr ⟨[], o, rfl, by simp⟩
    · rcases first_sep c o with h | ⟨a, b, e, h⟩
      · exact Or.inl (by simp [h, Ne.symm hx])
      · exact Or.inr ⟨x :: a, b, by rw [e]; rfl, by simp [h, Ne.symm hx]⟩

theorem append_sep {c : Char} : ∀ {a a' b b' : List Char}, c ∉ a → a' ++ c :: b' = a ++ c :: b →
    (a' = a ∧ b' = b) ∨ ∃ d, a' = a ++ c :: d ∧ b = d ++ c :: b'
  | [], [], b, b', _, e => by
    injection e with _ e; exact Or.inl ⟨rfl, e⟩
  | [], y :: a', b, b', _, e => by
    injection e with e1 e2
    exact Or.inr ⟨a', by rw [e1]; rfl, e2.symm⟩
  | x :: a, [], b, b', h, e => by
    injection e with e1 _
    exact absurd (by simp [← e1]) h
  | x :: a, y :: a', b, b', h, e => by
    injection e with e1 e2
    rcases append_sep (fun hc => h (List.mem_cons_of_mem _ hc)) e2 with ⟨h1, h2⟩ | ⟨d, h1, h2⟩
    · exact Or.inl ⟨by rw [e1, h1], h2⟩
    · exact Or.inr ⟨d, by rw [e1, h1]; rfl, h2⟩

theorem isLine_sep (a b l : List Char) (ha : '\n' ∉ a) : IsLine (a ++ '\n' :: b) l ↔ l = a ∨ IsLine b l := by
  constructor
  · rintro ⟨hl, p, q, e, hp, hq⟩
    rcases hp with rfl | ⟨p', rfl⟩
    · left
      rcases hq with rfl | ⟨q', rfl⟩
      · exact absurd (by rw [List.nil_append, List.append_nil] at e; rw [← e]; simp) hl
      · rw [List.nil_append] at e
        rcases append_sep hl e with ⟨h, _⟩ | ⟨d, h, _⟩
        · exact h.symm
        · exact absurd (by rw [h]; simp) ha
    · right
      have e' : p' ++ '\n' :: (l ++ q) = a ++ '\n' :: b := by rw [e]; simp
      rcases append_sep ha e' with ⟨_, h⟩ | ⟨d, _, h⟩
      · exact ⟨hl, [], q, by rw [← h]; rfl, Or.inl rfl, hq⟩
      · exact ⟨hl, d ++ ['\n'], q, by rw [h]; simp, Or.inr ⟨d, rfl⟩, hq⟩
  · rintro (rfl | ⟨hl, p, q, e, hp, hq⟩)
    · exact ⟨ha, [], '\n' :: b, rfl, Or.inl rfl, Or.inr ⟨b, rfl⟩⟩
    · refine ⟨hl, a ++ '\n' :: p, q, by rw [e]; simp, ?_, hq⟩
      right
      rcases hp with rfl | ⟨p', rfl⟩
      · exact ⟨a, rfl⟩
      · exact ⟨a ++ '\n' :: p', by simp⟩

theorem isLine_plain (o l : List Char) (h : '\n' ∉ o) : IsLine o l ↔ l = o := by
  constructor
  · rintro ⟨hl, p, q, e, hp, hq⟩
    rcases hp with rfl | ⟨p', rfl⟩
    · rcases hq with rfl | ⟨q', rfl⟩
      · rw [e]; simp
      · exact absurd (by rw [e]; simp) h
    · exact absurd (by rw [e]; simp) h
  · rintro rfl
    exact ⟨h, [], [], by simp, Or.inl rfl, Or.inl rfl⟩

/-- The lines are the elements of `split("\n")`. -/
theorem mem_split (l : List Char) : ∀ (n : Nat) (o : List Char), o.length ≤ n → (l ∈ split '\n' o ↔ IsLine o l) := by
  intro n
  induction n with
  | zero =>
    intro o ho
    rw [List.length_eq_zero_iff.1 (Nat.le_zero.1 ho), isLine_plain _ _ (by simp)]
    simp [split]
  | succ n ih =>
    intro o ho
    rcases first_sep '\n' o with h | ⟨a, b, rfl, h⟩
    · rw [isLine_plain _ _ h, split_nil_sep o '\n' (fun x hx e => h (e ▸ hx)), List.mem_singleton]
    · rw [isLine_sep _ _ _ h, split_cons_sep a b '\n' (fun x hx e => h (e ▸ hx)), List.mem_cons, ih b]
      rw [List.length_append, List.length_cons] at ho
      omega

theorem after_spec : ∀ (p l r : List Char), after p l = some r ↔ l = p ++ r
  | [], l, r => by simp [after]
  | x :: p, [], r => by simp [after]
  | x :: p, c :: l, r => by
    rw [after]
    by_cases h : x = c
    · subst h
      rw [if_pos rfl, after_spec p l r]
      simp
    · rw [if_neg h]
      simp [Ne.symm h]

theorem contains_spec (sub : List Char) : ∀ l : List Char, contains sub l = true ↔ ∃ a b, l = a ++ sub ++ b
  | [] => by
    rw [contains, Option.isSome_iff_exists]
    constructor
    · rintro ⟨r, h⟩
      exact ⟨[], r, (after_spec _ _ _).1 h⟩
    · rintro ⟨a, b, e⟩
      have := List.append_eq_nil_iff.1 e.symm
      have h2 := List.append_eq_nil_iff.1 this.1
      exact ⟨[], (after_spec _ _ _).2 (by rw [h2.2]; rfl)⟩
  | c :: l => by
    rw [contains, Bool.or_eq_true, Option.isSome_iff_exists, contains_spec sub l]
    constructor
    · rintro (⟨r, h⟩ | ⟨a, b, e⟩)
      · exact ⟨[], r, (after_spec _ _ _).1 h⟩
      · exact ⟨c :: a, b, by rw [e]; rfl⟩
    · rintro ⟨a, b, e⟩
      cases a with
      | nil => exact Or.inl ⟨b, (after_spec _ _ _).2 e⟩
      | cons x a =>
        injection e with _ e
        exact Or.inr ⟨a, b, e⟩

theorem takeDrop {p : Char → Bool} : ∀ {h r : List Char}, (∀ c ∈ h, p c = true) → (∀ c t, r = c :: t → p c = false) →
    (h ++ r).takeWhile p = h ∧ (h ++ r).dropWhile p = r
  | [], [], _, _ => by simp
  | [], c :: t, _, h2 => by
    have := h2 c t rfl
    simp [this]
  | x :: h, r, h1, h2 => by
    obtain ⟨i1, i2⟩ := takeDrop (fun c hc => h1 c (List.mem_cons_of_mem _ hc)) h2
    have := h1 x List.mem_cons_self
    simp [this, i1, i2]

theorem takeWhile_all {p : Char → Bool} : ∀ (l : List Char), ∀ c ∈ l.takeWhile p, p c = true
  | [], c, h => by simp at h
  | x :: l, c, h => by
    rw [List.takeWhile_cons] at h
    split at h
    · rcases List.mem_cons.1 h with rfl | h
      · assumption
      · exact takeWhile_all l c h
    · simp at h

theorem dropWhile_head {p : Char → Bool} : ∀ (l : List Char) (c : Char) (t : List Char), l.dropWhile p = c :: t → p c = false
  | [], c, t, h => by simp at h
  | x :: l, c, t, h => by
    rw [List.dropWhile_cons] at h
    split at h
    · exact dropWhile_head l c t h
    · injection h with h1 _
      subst h1
      simpa using ‹¬p x = true›

/-- The filter of TakTuk recognises the lines `STATUS host 0`. -/
theorem filterTaktuk_spec (l h : List Char) : filterTaktuk l = some h ↔ HostName h ∧ l = txt "STATUS " ++ (h ++ txt " 0") := by
  unfold filterTaktuk
  constructor
  · intro e
    cases ha : after (txt "STATUS ") l with
    | none => rw [ha] at e; exact absurd e (by simp)
    | some r =>
      rw [ha] at e
      dsimp only at e
      split at e
      · rename_i hc
        injection e with e
        subst e
        refine ⟨⟨hc.1, takeWhile_all r⟩, ?_⟩
        rw [(after_spec _ _ _).1 ha, ← hc.2, List.takeWhile_append_dropWhile]
      · exact absurd e (by simp)
  · rintro ⟨⟨h1, h2⟩, rfl⟩
    have ha : after (txt "STATUS ") (txt "STATUS " ++ (h ++ txt " 0")) = some (h ++ txt " 0") := (after_spec _ _ _).2 rfl
    rw [ha]
    dsimp only
    obtain ⟨e1, e2⟩ := takeDrop (p := isHost) (h := h) (r := txt " 0") h2
      (by intro c t e; have := (List.cons.inj (show ' ' :: ['0'] = c :: t from e)).1; subst this; decide)
    rw [e1, e2, if_pos ⟨h1, rfl⟩]

/-! ## The loop -/

theorem mem_keys (x : List Char) : ∀ hs : List (List Char), x ∈ keys hs ↔ x ∈ hs
  | [] => by simp [keys]
  | h :: hs => by
    rw [keys, List.mem_cons, List.mem_filter, mem_keys x hs, List.mem_cons, decide_eq_true_eq]
    by_cases e : x = h
    · simp [e]
    · simp [e]

theorem nodup_keys : ∀ hs : List (List Char), (keys hs).Nodup
  | [] => by simp [keys]
  | h :: hs => by
    rw [keys, List.nodup_cons]
    exact ⟨by simp, (nodup_keys hs).sublist List.filter_sublist⟩

theorem loop_normal (f : List Char → Except Err (Option (List Char))) : ∀ (ls bad : List (List Char)), (∀ l ∈ ls, ∃ o, f l = .ok o) →
    ∃ b, loop false f bad ls = .ok b ∧ b.Sublist bad ∧ ∀ x, x ∈ b ↔ x ∈ bad ∧ (x = [] ∨ ∀ l ∈ ls, f l ≠ .ok (some x))
  | [], bad, _ => ⟨bad, rfl, List.Sublist.refl _, by simp⟩
  | l :: ls, bad, h => by
    have h' : ∀ l ∈ ls, ∃ o, f l = .ok o := fun x hx => h x (List.mem_cons_of_mem _ hx)
    rw [loop]
    obtain ⟨o, ho⟩ := h l List.mem_cons_self
    rw [ho]
    cases o with
    | none =>
      dsimp only
      obtain ⟨b, h1, h2, h3⟩ := loop_normal f ls bad h'
      refine ⟨b, h1, h2, fun x => ?_⟩
      rw [h3 x]
      simp [ho]
    | some a =>
      dsimp only
      by_cases ha : a = []
      · rw [if_pos ha]
        obtain ⟨b, h1, h2, h3⟩ := loop_normal f ls bad h'
        refine ⟨b, h1, h2, fun x => ?_⟩
        rw [h3 x]
        subst ha
        by_cases hx : x = []
        · simp [hx]
        · simp [hx, ho, Ne.symm hx]
      · rw [if_neg ha]
        obtain ⟨b, h1, h2, h3⟩ := loop_normal f ls (bad.filter (fun x => decide (x ≠ a))) h'
        refine ⟨b, by simpa using h1, h2.trans List.filter_sublist, fun x => ?_⟩
        rw [h3 x, List.mem_filter, decide_eq_true_eq]
        by_cases hx : x = a
        · subst hx
          simp [ha, ho]
        · simp [hx, ho, Ne.symm hx]

theorem loop_add (f : List Char → Except Err (Option (List Char))) : ∀ (ls bad : List (List Char)),
    (loop true f bad ls = .ok [] ∨ ∃ e, loop true f bad ls = .error e) ∧
    ((∃ l ∈ ls, ∃ a, a ≠ [] ∧ f l = .ok (some a)) → ∃ e, loop true f bad ls = .error e)
  | [], bad => ⟨Or.inl rfl, by simp⟩
  | l :: ls, bad => by
    obtain ⟨i1, i2⟩ := loop_add f ls bad
    rw [loop]
    cases ho : f l with
    | error e => exact ⟨Or.inr ⟨e, rfl⟩, fun _ => ⟨e, rfl⟩⟩
    | ok o =>
      cases o with
      | none =>
        dsimp only
        refine ⟨i1, ?_⟩
        rintro ⟨l', hl, a, h1, h2⟩
        rcases List.mem_cons.1 hl with rfl | hl
        · rw [ho] at h2; exact absurd h2 (by simp)
        · exact i2 ⟨l', hl, a, h1, h2⟩
      | some a =>
        dsimp only
        by_cases ha : a = []
        · rw [if_pos ha]
          refine ⟨i1, ?_⟩
          rintro ⟨l', hl, a', h1, h2⟩
          rcases List.mem_cons.1 hl with rfl | hl
          · rw [ho] at h2; injection h2 with h2; injection h2 with h2; exact absurd (h2 ▸ ha) h1
          · exact i2 ⟨l', hl, a', h1, h2⟩
        · rw [if_neg ha]
          exact ⟨Or.inr ⟨_, rfl⟩, fun _ => ⟨_, rfl⟩⟩

/-! ## TakTuk -/

/-- **C77, TakTuk.** The bad hosts are exactly the hosts for which the command did not print the line `STATUS host 0`, each named once; a
host whose name has other characters than those of the pattern is always bad. -/
theorem taktuk_exact (c : Conf) (addr : List Char → List Char) (hosts : List (List Char)) (o : List Char) (hc : c.taktuk = true) :
    ∃ bad, check c addr hosts (some o) = .ok (true, bad) ∧ bad.Nodup ∧
      ∀ h, h ∈ bad ↔ h ∈ hosts ∧ ¬ (HostName h ∧ IsLine o (txt "STATUS " ++ (h ++ txt " 0"))) := by
  have hk : kind c = .taktuk := by unfold kind; rw [if_pos hc]
  unfold check
  rw [hk, if_neg (by decide)]
  dsimp only
  obtain ⟨b, h1, h2, h3⟩ := loop_normal (filterOutput .taktuk addr hosts) (split '\n' o) (keys hosts) (fun l _ => ⟨_, rfl⟩)
  rw [show addBad .taktuk = false from rfl, h1]
  refine ⟨b, rfl, h2.nodup (nodup_keys hosts), fun h => ?_⟩
  rw [h3, mem_keys]
  apply and_congr_right
  intro _
  constructor
  · rintro (rfl | hl) ⟨g1, g2⟩
    · exact g1.1 rfl
    · exact hl _ ((mem_split _ _ o (Nat.le_refl _)).2 g2) (congrArg _ ((filterTaktuk_spec _ _).2 ⟨g1, rfl⟩))
  · intro hn
    right
    intro l hl e
    injection e with e
    obtain ⟨g1, g2⟩ := (filterTaktuk_spec _ _).1 e
    subst g2
    exact hn ⟨g1, (mem_split _ _ o (Nat.le_refl _)).1 hl⟩

/-- **C77.** When the command does not end in time, the caller is told so. -/
theorem timeout_reported (c : Conf) (addr : List Char → List Char) (hosts : List (List Char)) (hc : kind c ≠ .absent) :
    check c addr hosts none = .ok (false, []) := by
  unfold check
  rw [if_neg hc]

/-! ## The methods that name the bad hosts -/

/-- C77 (violated). One would expect the hosts named by Sentinelle, by the generic command or found by fping to be reported: whatever is
printed, these methods report no host or raise; they raise as soon as a line names a host. -/
theorem named_never_reported_violated (c : Conf) (addr : List Char → List Char) (hosts : List (List Char)) (o : List Char)
    (hk : kind c = .sentinelle ∨ kind c = .generic ∨ kind c = .fping) :
    (check c addr hosts (some o) = .ok (true, []) ∨ ∃ e, check c addr hosts (some o) = .error e) ∧
    ((∃ l, IsLine o l ∧ ∃ h, h ≠ [] ∧ filterOutput (kind c) addr hosts l = .ok (some h)) → ∃ e, check c addr hosts (some o) = .error e) := by
  have hne : kind c ≠ .absent := by rcases hk with h | h | h <;> rw [h] <;> decide
  have hadd : addBad (kind c) = true := by rcases hk with h | h | h <;> rw [h] <;> rfl
  unfold check
  rw [if_neg hne, hadd]
  dsimp only
  obtain ⟨i1, i2⟩ := loop_add (filterOutput (kind c) addr hosts) (split '\n' o) (keys hosts)
  constructor
  · rcases i1 with i | ⟨e, i⟩ <;> rw [i]
    · exact Or.inl rfl
    · exact Or.inr ⟨e, rfl⟩
  · rintro ⟨l, hl, h, g1, g2⟩
    obtain ⟨e, i⟩ := i2 ⟨l, (mem_split _ _ o (Nat.le_refl _)).2 hl, h, g1, g2⟩
    rw [i]
    exact ⟨e, rfl⟩

/-- The line `host : BAD …` of Sentinelle names its host. -/
theorem filterSentinelle_line (h rest : List Char) (hh : HostName h) : filterSentinelle (h ++ txt " : BAD " ++ rest) = some h := by
  unfold filterSentinelle
  obtain ⟨e1, e2⟩ := takeDrop (p := isHost) (h := h) (r := txt " : BAD " ++ rest) hh.2
    (by intro c t e; have := (List.cons.inj (show ' ' :: _ = c :: t from e)).1; subst this; decide)
  rw [List.append_assoc, e1, e2]
  show (if h ≠ [] ∧ isSp ' ' = true ∧ isSp ' ' = true ∧ isSp ' ' = true then some h else none) = some h
  rw [if_pos ⟨hh.1, by decide, by decide, by decide⟩]

/-- A line made of a host names it (generic command). -/
theorem filterGeneric_line (h : List Char) (hh : HostName h) : filterGeneric h = some h := by
  unfold filterGeneric
  have e0 : h.dropWhile isSp = h := by
    have hx := takeDrop (p := isSp) (h := []) (r := h) (by simp) (by
      intro c t e
      have := hh.2 c (by rw [e]; simp)
      unfold isSp
      unfold isHost at this
      cases hs : (c == ' ' || c == '\t' || c == '\n' || c == '\r' || c == '\x0b' || c == '\x0c') with
      | false => rfl
      | true =>
        simp only [Bool.or_eq_true, beq_iff_eq] at hs
        rcases hs with ((((rfl | rfl) | rfl) | rfl) | rfl) | rfl <;> exact absurd this (by decide))
    exact hx.2
  obtain ⟨e1, e2⟩ := takeDrop (p := isHost) (h := h) (r := []) hh.2 (by simp)
  rw [List.append_nil] at e1 e2
  rw [e0]
  dsimp only
  rw [e1, e2, if_pos ⟨hh.1, rfl⟩]

/-- C77 (violated), the messages of the two first methods: a bad host named by the command makes the test raise. -/
theorem named_raises_violated (c : Conf) (addr : List Char → List Char) (hosts : List (List Char)) (h rest o : List Char) (hh : HostName h)
    (hk : kind c = .sentinelle ∧ IsLine o (h ++ txt " : BAD " ++ rest) ∨ kind c = .generic ∧ IsLine o h) :
    ∃ e, check c addr hosts (some o) = .error e := by
  rcases hk with ⟨hk, hl⟩ | ⟨hk, hl⟩
  · refine (named_never_reported_violated c addr hosts o (Or.inl hk)).2 ⟨_, hl, h, hh.1, ?_⟩
    rw [hk]
    exact congrArg _ (filterSentinelle_line h rest hh)
  · refine (named_never_reported_violated c addr hosts o (Or.inr (Or.inl hk))).2 ⟨_, hl, h, hh.1, ?_⟩
    rw [hk]
    exact congrArg _ (filterGeneric_line h hh)

/-- C77 (violated). Without any method in the configuration, the test raises. -/
theorem no_method_violated (addr : List Char → List Char) (hosts : List (List Char)) (out : Option (List Char)) :
    check {} addr hosts out = .error .unbound := rfl

/-- C77 (violated). The first host is glued to the generic command: another program is run. -/
theorem generic_command_violated (p h : List Char) (hs : List (List Char)) :
    ∃ r, command { generic := some p } (h :: hs) = some (p ++ h ++ r) := by
  cases hs with
  | nil => exact ⟨[], by show some (p ++ h) = _; simp⟩
  | cons a l => exact ⟨' ' :: joinSp (a :: l), by show some (p ++ (h ++ ' ' :: joinSp (a :: l))) = _; simp⟩

/-! ## nmap -/

theorem number_spec (l d r : List Char) : number l = some (d, r) ↔ l = d ++ r ∧ Number d ∧ ∀ c t, r = c :: t → c.isDigit = false := by
  unfold number
  dsimp only
  constructor
  · intro e
    split at e
    · exact absurd e (by simp)
    · rename_i hne
      injection e with e
      have e1 := (Prod.mk.inj e).1
      have e2 := (Prod.mk.inj e).2
      subst e1; subst e2
      exact ⟨List.takeWhile_append_dropWhile.symm, ⟨hne, takeWhile_all l⟩, dropWhile_head l⟩
  · rintro ⟨rfl, ⟨h1, h2⟩, h3⟩
    obtain ⟨e1, e2⟩ := takeDrop (p := Char.isDigit) h2 h3
    rw [e1, e2, if_neg h1]

/-- `k + 1` numbers separated by dots. -/
def Dots : Nat → List Char → Prop
  | 0, ip => Number ip
  | k + 1, ip => ∃ a r, Number a ∧ Dots k r ∧ ip = a ++ '.' :: r

theorem dots_iff (ip : List Char) : Dots 3 ip ↔ Dotted ip := by
  constructor
  · rintro ⟨a, r, ha, ⟨b, r', hb, ⟨c, d, hc, hd, rfl⟩, rfl⟩, rfl⟩
    exact ⟨a, b, c, d, ha, hb, hc, hd, rfl⟩
  · rintro ⟨a, b, c, d, ha, hb, hc, hd, rfl⟩
    exact ⟨a, _, ha, ⟨b, _, hb, ⟨c, d, hc, hd, rfl⟩, rfl⟩, rfl⟩

theorem numbers_spec : ∀ (k : Nat) (l ip r : List Char), numbers k l = some (ip, r) ↔ l = ip ++ r ∧ Dots k ip ∧ ∀ c t, r = c :: t → c.isDigit = false
  | 0, l, ip, r => number_spec l ip r
  | k + 1, l, ip, r => by
    rw [numbers]
    constructor
    · intro e
      split at e
      · rename_i d r0 hn
        obtain ⟨h1, h2, _⟩ := (number_spec _ _ _).1 hn
        rw [Option.map_eq_some_iff] at e
        obtain ⟨⟨ip', r'⟩, g1, g2⟩ := e
        obtain ⟨i1, i2, i3⟩ := (numbers_spec k _ _ _).1 g1
        have e1 := (Prod.mk.inj g2).1
        have e2 := (Prod.mk.inj g2).2
        subst e1; subst e2
        exact ⟨by rw [h1, i1]; simp, ⟨d, ip', h2, i2, rfl⟩, i3⟩
      · exact absurd e (by simp)
    · rintro ⟨rfl, ⟨a, q, ha, hq, rfl⟩, h3⟩
      have hn : number (a ++ '.' :: (q ++ r)) = some (a, '.' :: (q ++ r)) :=
        (number_spec _ _ _).2 ⟨rfl, ha, by intro c t e; have := (List.cons.inj e).1; subst this; decide⟩
      rw [show a ++ '.' :: q ++ r = a ++ '.' :: (q ++ r) by simp, hn]
      show Option.map (fun x => (a ++ '.' :: x.1, x.2)) (numbers k (q ++ r)) = _
      rw [(numbers_spec k (q ++ r) q r).2 ⟨rfl, hq, h3⟩]
      rfl

/-- The pattern of nmap recognises the lines that say that an address has an open port. -/
theorem addressNmap_spec (l ip : List Char) : addressNmap l = some ip ↔ Reports l ip := by
  unfold addressNmap
  constructor
  · intro e
    split at e
    · rename_i s r ha
      split at e
      · rename_i hs
        split at e
        · rename_i ip' rest hn
          split at e
          · rename_i hc
            injection e with e
            subst e
            obtain ⟨h1, h2, h3⟩ := (numbers_spec _ _ _ _).1 hn
            exact ⟨s, rest, by rw [(after_spec _ _ _).1 ha, h1], hs, (dots_iff _).1 h2, h3, (contains_spec _ _).1 hc⟩
          · exact absurd e (by simp)
        · exact absurd e (by simp)
      · exact absurd e (by simp)
    · exact absurd e (by simp)
  · rintro ⟨s, rest, rfl, hs, hd, hr, ho⟩
    have ha : after (txt "Host:") (txt "Host:" ++ s :: (ip ++ rest)) = some (s :: (ip ++ rest)) := (after_spec _ _ _).2 rfl
    rw [ha]
    dsimp only
    rw [if_pos hs, (numbers_spec 3 (ip ++ rest) ip rest).2 ⟨rfl, (dots_iff _).2 hd, hr⟩]
    dsimp only
    rw [if_pos ((contains_spec _ _).2 ho)]

theorem ip2host_mem {addr : List Char → List Char} {hosts : List (List Char)} {ip h : List Char} (e : ip2host addr hosts ip = some h) :
    h ∈ hosts ∧ addr h = ip := by
  unfold ip2host at e
  have h1 := List.mem_of_find?_eq_some e
  have h2 := List.find?_some e
  exact ⟨List.mem_reverse.1 h1, by simpa using h2⟩

/-- **C77, nmap.** When the hosts have different addresses and the command speaks of no other address, the bad hosts are exactly those without
a line saying that their address has an open port. -/
theorem nmap_exact_partial (c : Conf) (addr : List Char → List Char) (hosts : List (List Char)) (o : List Char) (hk : kind c = .nmap)
    (hne : ∀ h ∈ hosts, h ≠ []) (hinj : ∀ h ∈ hosts, ∀ h' ∈ hosts, addr h = addr h' → h = h')
    (hknown : ∀ l ip, IsLine o l → Reports l ip → ∃ h ∈ hosts, addr h = ip) :
    ∃ bad, check c addr hosts (some o) = .ok (true, bad) ∧ bad.Nodup ∧
      ∀ h, h ∈ bad ↔ h ∈ hosts ∧ ¬ ∃ l, IsLine o l ∧ Reports l (addr h) := by
  unfold check
  rw [hk, if_neg (by decide)]
  dsimp only
  have hf : ∀ l h, IsLine o l → (filterOutput .nmap addr hosts l = .ok (some h) ↔ h ∈ hosts ∧ Reports l (addr h)) := by
    intro l h hl
    unfold filterOutput
    cases ha : addressNmap l with
    | none =>
      dsimp only
      constructor
      · intro e; exact absurd e (by simp)
      · rintro ⟨_, g⟩; rw [(addressNmap_spec _ _).2 g] at ha; exact absurd ha (by simp)
    | some ip =>
      dsimp only
      have hr := (addressNmap_spec _ _).1 ha
      obtain ⟨h0, m0, e0⟩ := hknown l ip hl hr
      cases hi : ip2host addr hosts ip with
      | none =>
        exfalso
        unfold ip2host at hi
        rw [List.find?_eq_none] at hi
        exact hi h0 (List.mem_reverse.2 m0) (by simpa using e0)
      | some h1 =>
        dsimp only
        obtain ⟨m1, e1⟩ := ip2host_mem hi
        constructor
        · intro e
          injection e with e; injection e with e
          subst e
          exact ⟨m1, by rw [e1]; exact hr⟩
        · rintro ⟨m, g⟩
          have := (addressNmap_spec _ _).2 g
          rw [ha] at this
          injection this with this
          rw [hinj h1 m1 h m (by rw [e1, this])]
  have hok : ∀ l ∈ split '\n' o, ∃ x, filterOutput .nmap addr hosts l = .ok x := by
    intro l hl
    have hl' := (mem_split _ _ o (Nat.le_refl _)).1 hl
    unfold filterOutput
    cases ha : addressNmap l with
    | none => exact ⟨none, rfl⟩
    | some ip =>
      dsimp only
      obtain ⟨h0, m0, e0⟩ := hknown l ip hl' ((addressNmap_spec _ _).1 ha)
      cases hi : ip2host addr hosts ip with
      | none =>
        exfalso
        unfold ip2host at hi
        rw [List.find?_eq_none] at hi
        exact hi h0 (List.mem_reverse.2 m0) (by simpa using e0)
      | some h1 => exact ⟨some h1, rfl⟩
  obtain ⟨b, h1, h2, h3⟩ := loop_normal _ _ (keys hosts) hok
  rw [show addBad .nmap = false from rfl, h1]
  refine ⟨b, rfl, h2.nodup (nodup_keys hosts), fun h => ?_⟩
  rw [h3, mem_keys]
  apply and_congr_right
  intro hm
  constructor
  · rintro (e | g) ⟨l, g1, g2⟩
    · exact hne h hm e
    · exact g l ((mem_split _ _ o (Nat.le_refl _)).2 g1) ((hf l h g1).2 ⟨hm, g2⟩)
  · intro g
    right
    intro l hl e
    have hl' := (mem_split _ _ o (Nat.le_refl _)).1 hl
    exact g ⟨l, hl', ((hf l h hl').1 e).2⟩

/-- C77 (violated). Two names of the same machine: the first one is bad whatever nmap prints. -/
theorem nmap_shared_violated (c : Conf) (addr : List Char → List Char) (h h' : List Char) (o : List Char) (bad : List (List Char)) (b : Bool)
    (hk : kind c = .nmap) (hne : h ≠ h') (ha : addr h = addr h') (hr : check c addr [h, h'] (some o) = .ok (b, bad)) : h ∈ bad := by
  unfold check at hr
  rw [hk, if_neg (by decide)] at hr
  dsimp only at hr
  have key : ∀ (ls bd : List (List Char)), h ∈ bd → ∀ r, loop (addBad .nmap) (filterOutput .nmap addr [h, h']) bd ls = .ok r → h ∈ r := by
    intro ls
    induction ls with
    | nil => intro bd hb r e; injection e with e; rw [← e]; exact hb
    | cons l ls ih =>
      intro bd hb r e
      rw [loop] at e
      cases hf : filterOutput .nmap addr [h, h'] l with
      | error x => rw [hf] at e; exact absurd e (by simp)
      | ok x =>
        rw [hf] at e
        cases x with
        | none => exact ih bd hb r e
        | some a =>
          dsimp only at e
          split at e
          · exact ih bd hb r e
          · rw [if_neg (by decide)] at e
            refine ih _ ?_ r e
            rw [List.mem_filter, decide_eq_true_eq]
            refine ⟨hb, ?_⟩
            rintro rfl
            unfold filterOutput at hf
            cases hn : addressNmap l with
            | none => rw [hn] at hf; exact absurd hf (by simp)
            | some ip =>
              rw [hn] at hf
              dsimp only at hf
              cases hi : ip2host addr [h, h'] ip with
              | none => rw [hi] at hf; exact absurd hf (by simp)
              | some h1 =>
                rw [hi] at hf
                injection hf with hf; injection hf with hf
                subst hf
                have hm := (ip2host_mem hi).2
                unfold ip2host at hi
                rw [show [h1, h'].reverse = [h', h1] from rfl, List.find?_cons_of_pos (by simp [← ha, hm])] at hi
                injection hi with hi
                exact hne hi.symm
  cases hl : loop (addBad .nmap) (filterOutput .nmap addr [h, h']) (keys [h, h']) (split '\n' o) with
  | error e => rw [hl] at hr; exact absurd hr (by simp)
  | ok r =>
    rw [hl] at hr
    injection hr with hr
    rw [← (Prod.mk.inj hr).2]
    exact key _ _ ((mem_keys _ _).2 (by simp)) _ hl

/-- C77 (violated). An address that is not one of the hosts makes the test raise. -/
theorem nmap_unknown_violated (c : Conf) (addr : List Char → List Char) (hosts : List (List Char)) (ip l : List Char) (hk : kind c = .nmap)
    (hl : '\n' ∉ l) (hr : Reports l ip) (hu : ∀ h ∈ hosts, addr h ≠ ip) : check c addr hosts (some l) = .error .key := by
  unfold check
  rw [hk, if_neg (by decide)]
  dsimp only
  rw [split_nil_sep l '\n' (fun x hx e => hl (e ▸ hx)), loop]
  have : filterOutput .nmap addr hosts l = .error .key := by
    unfold filterOutput
    rw [(addressNmap_spec _ _).2 hr]
    dsimp only
    have : ip2host addr hosts ip = none := by
      unfold ip2host
      rw [List.find?_eq_none]
      intro h hm
      simpa using hu h (List.mem_reverse.1 hm)
    rw [this]
  rw [this]

/-! ## Finaud -/

theorem tested_of_checked {w : RDB} {all : Bool} {n : Res} (hn : Checked w all n) : n.host.toList ∈ tested w all := by
  obtain ⟨m, hm, e⟩ := firstOfHost_host (seen := []) (l := w.res.filter finaudable) (h := n.host) (by simp)
    ⟨n, List.mem_filter.2 ⟨hn.1, by
      unfold finaudable
      simp only [Bool.and_eq_true, Bool.or_eq_true, beq_iff_eq]
      exact ⟨⟨hn.2.1, hn.2.2.1⟩, hn.2.2.2.1⟩⟩, rfl⟩
  unfold tested
  rw [List.mem_map]
  refine ⟨m, List.mem_filter.2 ⟨hm, ?_⟩, by rw [e]⟩
  rw [e]
  rcases hn.2.2.2.2.imp id (occupied_false_iff w n.host).2 with h | h <;> simp [h]

/-- The node printed `STATUS host 0`. -/
def Answered (o : List Char) (h : String) : Prop := HostName h.toList ∧ IsLine o (txt "STATUS " ++ (h.toList ++ txt " 0"))

/-- **C77, Finaud with TakTuk.** A run ends, and requests a state only for resources of tested nodes: Suspected when the node was Alive and did not
answer, Alive when it was suspected by the checker and answered. Every tested node gets its request (its resources being in the same state). -/
theorem finaud_taktuk (c : Conf) (addr : List Char → List Char) (w : RDB) (all : Bool) (o : List Char) (hc : c.taktuk = true) :
    ∃ w', finaud c addr w all (some o) = .ok w' ∧
      (∃ f : Res → Res, w'.res = w.res.map f ∧ ∀ r ∈ w.res, f r = r ∨
        ∃ n, Checked w all n ∧ n.host = r.host ∧
          ((¬ Answered o r.host ∧ n.state = "Alive" ∧ f r = { r with next := "Suspected", nextFinaud := true }) ∨
           (Answered o r.host ∧ n.state = "Suspected" ∧ n.finaud = true ∧ f r = { r with next := "Alive", nextFinaud := true }))) ∧
      (∀ n, Checked w all n → (∀ m, Checked w all m → m.host = n.host → m.state = n.state) → ∀ r ∈ w'.res, r.host = n.host →
        (¬ Answered o n.host → n.state = "Alive" → r.next = "Suspected") ∧ (Answered o n.host → n.state = "Suspected" → r.next = "Alive")) := by
  obtain ⟨bad, h1, _, h3⟩ := taktuk_exact c addr (tested w all) o hc
  unfold finaud
  rw [h1]
  have hbad : ∀ n, Checked w all n → (n.host.toList ∈ bad ↔ ¬ Answered o n.host) := by
    intro n hn
    rw [h3]
    exact ⟨fun h => h.2, fun h => ⟨tested_of_checked hn, h⟩⟩
  refine ⟨_, rfl, ?_, ?_⟩
  · obtain ⟨f, hf, hr⟩ := finaud_only w all (fun h => if true then decide (h.toList ∈ bad) else decide (h.toList ∈ tested w all))
    refine ⟨f, hf, fun r hm => ?_⟩
    rcases hr r hm with h | ⟨n, hn, hh, h | h⟩
    · exact Or.inl h
    · obtain ⟨hb, hs, he⟩ := h
      right
      refine ⟨n, hn, hh, Or.inl ⟨?_, hs, he⟩⟩
      rw [← hh]
      refine (hbad n hn).1 ?_
      rw [hh]
      simpa using hb
    · obtain ⟨hb, hs, hfi, he⟩ := h
      right
      refine ⟨n, hn, hh, Or.inr ⟨?_, hs, hfi, he⟩⟩
      rw [← hh]
      refine Classical.byContradiction (fun hx => ?_)
      have := (hbad n hn).2 hx
      rw [hh] at this
      simp [this] at hb
  · intro n hn hsame r hr hh
    obtain ⟨g1, g2⟩ := finaud_complete w all (fun h => if true then decide (h.toList ∈ bad) else decide (h.toList ∈ tested w all)) n hn hsame
    constructor
    · intro ha hs
      exact (g1 (by simpa using (hbad n hn).2 ha) hs r hr hh).1
    · intro ha hs
      refine (g2 ?_ hs r hr hh).1
      have : n.host.toList ∉ bad := fun hx => (hbad n hn).1 hx ha
      simpa using this

/-- C77 (violated). With Sentinelle, the generic command or fping, whatever the nodes and the output, the checker of the nodes never requests
Suspected: it raises, or only revives. -/
theorem finaud_never_suspects_violated (c : Conf) (addr : List Char → List Char) (w : RDB) (all : Bool) (o : List Char) (w' : RDB)
    (hk : kind c = .sentinelle ∨ kind c = .generic ∨ kind c = .fping) (hw : finaud c addr w all (some o) = .ok w') :
    ∃ f : Res → Res, w'.res = w.res.map f ∧ ∀ r ∈ w.res, f r = r ∨ f r = { r with next := "Alive", nextFinaud := true } := by
  unfold finaud at hw
  rcases (named_never_reported_violated c addr (tested w all) o hk).1 with h | ⟨e, h⟩
  · rw [h] at hw
    injection hw with hw
    obtain ⟨f, hf, hr⟩ := finaud_only w all (fun h => if true then decide (h.toList ∈ ([] : List (List Char))) else decide (h.toList ∈ tested w all))
    rw [← hw]
    refine ⟨f, hf, fun r hm => ?_⟩
    rcases hr r hm with h | ⟨n, hn, hh, h | h⟩
    · exact Or.inl h
    · exact absurd h.1 (by simp)
    · exact Or.inr h.2.2.2
  · rw [h] at hw
    exact absurd hw (by simp)

/-- **C77, timeout.** When the command does not end in time, every tested node that was Alive is suspected, and no node is revived. -/
theorem finaud_timeout (c : Conf) (addr : List Char → List Char) (w : RDB) (all : Bool) (hc : kind c ≠ .absent) :
    ∃ w', finaud c addr w all none = .ok w' ∧
      (∃ f : Res → Res, w'.res = w.res.map f ∧ ∀ r ∈ w.res, f r = r ∨
        ∃ n, Checked w all n ∧ n.host = r.host ∧ n.state = "Alive" ∧ f r = { r with next := "Suspected", nextFinaud := true }) ∧
      ∀ n, Checked w all n → (∀ m, Checked w all m → m.host = n.host → m.state = n.state) → n.state = "Alive" →
        ∀ r ∈ w'.res, r.host = n.host → r.next = "Suspected" := by
  unfold finaud
  rw [timeout_reported c addr (tested w all) hc]
  refine ⟨_, rfl, ?_, ?_⟩
  · obtain ⟨f, hf, hr⟩ := finaud_only w all (fun h => if false then decide (h.toList ∈ ([] : List (List Char))) else decide (h.toList ∈ tested w all))
    refine ⟨f, hf, fun r hm => ?_⟩
    rcases hr r hm with h | ⟨n, hn, hh, h | h⟩
    · exact Or.inl h
    · exact Or.inr ⟨n, hn, hh, h.2⟩
    · have := tested_of_checked hn
      rw [hh] at this
      simp [this] at h
  · intro n hn hsame hs r hr hh
    obtain ⟨g1, _⟩ := finaud_complete w all (fun h => if false then decide (h.toList ∈ ([] : List (List Char))) else decide (h.toList ∈ tested w all)) n hn hsame
    exact (g1 (by simpa using tested_of_checked hn) hs r hr hh).1

/-- **C77, methods.** The method used is the first configured of TakTuk, Sentinelle, nmap, the generic command and fping; the last three run their
command on all the hosts: nmap with a report on the output, fping with the list of the unreachable hosts. -/
theorem method_order (c : Conf) (hosts : List (List Char)) (p : List Char) :
    (c.taktuk = true → kind c = .taktuk) ∧ (c.taktuk = false → c.sentinelle = true → kind c = .sentinelle) ∧
    (c.taktuk = false → c.sentinelle = false →
      (c.nmap = some p → kind c = .nmap ∧ command c hosts = some (p ++ txt " -oG - " ++ joinSp hosts)) ∧
      (c.nmap = none → c.generic = some p → kind c = .generic ∧ command c hosts = some (p ++ joinSp hosts)) ∧
      (c.nmap = none → c.generic = none → c.fping = some p → kind c = .fping ∧ command c hosts = some (p ++ txt " -u " ++ joinSp hosts)) ∧
      (c.nmap = none → c.generic = none → c.fping = none → kind c = .absent)) := by
  refine ⟨fun h => ?_, fun h1 h2 => ?_, fun h1 h2 => ⟨fun h => ?_, fun h h' => ?_, fun h h' h'' => ?_, fun h h' h'' => ?_⟩⟩
  · simp [kind, h]
  · simp [kind, h1, h2]
  · have : kind c = .nmap := by simp [kind, h1, h2, h]
    exact ⟨this, by simp [command, this, h]⟩
  · have : kind c = .generic := by simp [kind, h1, h2, h, h']
    exact ⟨this, by simp [command, this, h']⟩
  · have : kind c = .fping := by simp [kind, h1, h2, h, h', h'']
    exact ⟨this, by simp [command, this, h'']⟩
  · simp [kind, h1, h2, h, h', h'']

/-! ## Concrete cases -/

example : (check { taktuk := true } id [txt "n1", txt "n2", txt "n3"] (some (txt "STATUS n1 0\nSTATUS n3 255\nSTATUS n2 0\n"))).toOption = some (true, [txt "n3"]) := by
  decide +kernel

/-- The addresses of the example. -/
def exAddr (h : List Char) : List Char := if h = txt "n1" then txt "10.0.0.1" else txt "10.0.0.2"

example : (check { nmap := some (txt "nmap -p 22") } exAddr [txt "n1", txt "n2"]
    (some (txt "# Nmap\nHost: 10.0.0.2 (n2)\tPorts: 22/open/tcp//ssh///\n"))).toOption = some (true, [txt "n1"]) := by decide +kernel

/-- The hypothesis of `nmap_exact_partial` on the addresses. -/
example : Reports (txt "Host: 10.0.0.2 (n2)\tPorts: 22/open/tcp//ssh///") (exAddr (txt "n2")) :=
  (addressNmap_spec _ _).1 (by decide +kernel)

example : (check { generic := some (txt "ping-all ") } id [txt "n1", txt "n2"] (some (txt "n2\n"))).toOption = none := by decide +kernel

example : (check { fping := some (txt "fping") } id [txt "n1", txt "n2"] (some (txt "n1 is unreachable\n"))).toOption = some (true, []) := by decide +kernel

example : command { generic := some (txt "ping-all") } [txt "n1", txt "n2"] = some (txt "ping-alln1 n2") := by decide +kernel

end Oar.Ping
