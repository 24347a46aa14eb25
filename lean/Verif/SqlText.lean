import Verif.Tools

/-!
# The meaning of the conditions given as texts

The properties of a job, of a group of resources and of the administrator are texts joined by the code and given to the database
(`text(sql_constraints)`). This is a specification of their meaning for one resource: words and parentheses, AND and OR in any case,
quoted texts. An elementary condition is anything else, its value is a parameter. Not covered: BETWEEN … AND, comments.
-/

namespace Oar.Sql

open Oar.Tools

inductive Tok where
  | lpar | rpar | or | and
  | word (w : List Char)
  deriving DecidableEq, Repr

def upper (w : List Char) : List Char := w.map Char.toUpper

/-- The word read so far, if any. -/
def word (w : List Char) : List Tok :=
  if w = [] then [] else if upper w = txt "OR" then [.or] else if upper w = txt "AND" then [.and] else [.word w]

/-- The tokens; the first argument tells that the position is between quotes, the second is the word read so far. -/
def lexFrom : Bool → List Char → List Char → List Tok
  | _, cur, [] => word cur
  | true, cur, c :: l => lexFrom (c ≠ '\'') (cur ++ [c]) l
  | false, cur, c :: l =>
    if c = '\'' then lexFrom true (cur ++ [c]) l
    else if c = ' ' then word cur ++ lexFrom false [] l
    else if c = '(' then word cur ++ Tok.lpar :: lexFrom false [] l
    else if c = ')' then word cur ++ Tok.rpar :: lexFrom false [] l
    else lexFrom false (cur ++ [c]) l

def lex (q : List Char) : List Tok := lexFrom false [] q

/-- The text ends outside quotes. -/
def quotesClosed : Bool → List Char → Bool
  | b, [] => !b
  | b, c :: l => quotesClosed (if c = '\'' then !b else b) l

/-- The parentheses are balanced, `n` of them being open. -/
def balanced : Nat → List Tok → Bool
  | n, [] => n = 0
  | n, .lpar :: l => balanced (n + 1) l
  | 0, .rpar :: _ => false
  | n + 1, .rpar :: l => balanced n l
  | n, _ :: l => balanced n l

def deeper (n : Nat) : Tok → Nat
  | .lpar => n + 1
  | .rpar => n - 1
  | _ => n

/-- Adds a token to the first part. -/
def addFirst (t : Tok) : List (List Tok) → List (List Tok)
  | [] => [[t]]
  | p :: ps => (t :: p) :: ps

/-- The parts between the tokens `s` outside parentheses, `n` of them being open. -/
def splitTop (s : Tok) : Nat → List Tok → List (List Tok)
  | _, [] => [[]]
  | n, t :: l => if n = 0 ∧ t = s then [] :: splitTop s 0 l else addFirst t (splitTop s (deeper n t) l)

/-- The content of a part in parentheses. -/
def inside (f : List Tok) : Option (List Tok) :=
  match f with
  | .lpar :: l => if l.getLast? = some .rpar ∧ balanced 0 l.dropLast = true then some l.dropLast else none
  | _ => none

/-- The value of a condition: OR of AND of elementary conditions or conditions in parentheses; at most `k` levels of parentheses. -/
def value (val : List Tok → Bool) : Nat → List Tok → Bool
  | 0, _ => false
  | k + 1, q => (splitTop .or 0 q).any (fun d => (splitTop .and 0 d).all (fun f =>
      match inside f with
      | some i => value val k i
      | none => val f))

/-- The value of a condition. -/
def holdsToks (val : List Tok → Bool) (q : List Tok) : Bool := value val (q.length + 1) q

/-- A resource, given by the values `val` of the elementary conditions, satisfies the text. -/
def Holds (val : List Tok → Bool) (q : List Char) : Prop := holdsToks val (lex q) = true

/-- A well-formed text: quotes and parentheses are closed. -/
def Closed (q : List Char) : Prop := quotesClosed false q = true ∧ balanced 0 (lex q) = true

/-- No OR outside parentheses. -/
def NoOr (q : List Char) : Prop := (splitTop .or 0 (lex q)).length = 1

instance (val : List Tok → Bool) (q : List Char) : Decidable (Holds val q) := inferInstanceAs (Decidable (_ = true))
instance (q : List Char) : Decidable (Closed q) := inferInstanceAs (Decidable (_ ∧ _))
instance (q : List Char) : Decidable (NoOr q) := inferInstanceAs (Decidable (_ = _))

/-! ## Tokens -/

theorem lexFrom_blank (a b : List Char) : ∀ (q : Bool) (cur : List Char), quotesClosed q a = true →
    lexFrom q cur (a ++ ' ' :: b) = lexFrom q cur a ++ lexFrom false [] b := by
  induction a with
  | nil =>
    intro q cur h
    cases q with
    | false => simp [lexFrom]
    | true => simp [quotesClosed] at h
  | cons c a ih =>
    intro q cur h
    rw [quotesClosed] at h
    cases q with
    | true =>
      rw [List.cons_append, lexFrom, lexFrom]
      apply ih
      by_cases hc : c = '\''
      · simpa [hc] using h
      · simpa [hc] using h
    | false =>
      rw [List.cons_append, lexFrom, lexFrom]
      by_cases h1 : c = '\''
      · rw [if_pos h1, if_pos h1]
        exact ih _ _ (by simpa [h1] using h)
      · have h' : quotesClosed false a = true := by simpa [h1] using h
        rw [if_neg h1, if_neg h1]
        by_cases h2 : c = ' '
        · rw [if_pos h2, if_pos h2, ih _ _ h', List.append_assoc]
        · rw [if_neg h2, if_neg h2]
          by_cases h3 : c = '('
          · rw [if_pos h3, if_pos h3, ih _ _ h', List.append_assoc]; rfl
          · rw [if_neg h3, if_neg h3]
            by_cases h4 : c = ')'
            · rw [if_pos h4, if_pos h4, ih _ _ h', List.append_assoc]; rfl
            · rw [if_neg h4, if_neg h4]
              exact ih _ _ h'

theorem lexFrom_rpar (a b : List Char) : ∀ (q : Bool) (cur : List Char), quotesClosed q a = true →
    lexFrom q cur (a ++ ')' :: b) = lexFrom q cur a ++ Tok.rpar :: lexFrom false [] b := by
  induction a with
  | nil =>
    intro q cur h
    cases q with
    | false => simp [lexFrom]
    | true => simp [quotesClosed] at h
  | cons c a ih =>
    intro q cur h
    rw [quotesClosed] at h
    cases q with
    | true =>
      rw [List.cons_append, lexFrom, lexFrom]
      apply ih
      by_cases hc : c = '\''
      · simpa [hc] using h
      · simpa [hc] using h
    | false =>
      rw [List.cons_append, lexFrom, lexFrom]
      by_cases h1 : c = '\''
      · rw [if_pos h1, if_pos h1]
        exact ih _ _ (by simpa [h1] using h)
      · have h' : quotesClosed false a = true := by simpa [h1] using h
        rw [if_neg h1, if_neg h1]
        by_cases h2 : c = ' '
        · rw [if_pos h2, if_pos h2, ih _ _ h', List.append_assoc]
        · rw [if_neg h2, if_neg h2]
          by_cases h3 : c = '('
          · rw [if_pos h3, if_pos h3, ih _ _ h', List.append_assoc]; rfl
          · rw [if_neg h3, if_neg h3]
            by_cases h4 : c = ')'
            · rw [if_pos h4, if_pos h4, ih _ _ h', List.append_assoc]; rfl
            · rw [if_neg h4, if_neg h4]
              exact ih _ _ h'

/-- The tokens of two texts joined by AND. -/
theorem lex_and (a b : List Char) (h : quotesClosed false a = true) : lex (a ++ txt " AND " ++ b) = lex a ++ Tok.and :: lex b := by
  have e : a ++ txt " AND " ++ b = a ++ ' ' :: (txt "AND" ++ ' ' :: b) := by simp [txt]
  unfold lex
  rw [e, lexFrom_blank a _ _ _ h, lexFrom_blank (txt "AND") b _ _ (by decide)]
  rfl

/-- The tokens of a text in parentheses followed by AND and another text. -/
theorem lex_paren_and (a b : List Char) (h : quotesClosed false a = true) :
    lex (txt "(" ++ a ++ txt ") AND " ++ b) = Tok.lpar :: lex a ++ [Tok.rpar] ++ Tok.and :: lex b := by
  have e : txt "(" ++ a ++ txt ") AND " ++ b = '(' :: (a ++ ')' :: ([] ++ ' ' :: (txt "AND" ++ ' ' :: b))) := by simp [txt]
  unfold lex
  rw [e, lexFrom, if_neg (by decide), if_neg (by decide), if_pos rfl, lexFrom_rpar a _ _ _ h, lexFrom_blank [] _ _ _ (by decide),
    lexFrom_blank (txt "AND") b _ _ (by decide)]
  simp [lexFrom, word, txt, upper]

theorem quotesClosed_append (a b : List Char) : ∀ q, quotesClosed q a = true → quotesClosed q (a ++ b) = quotesClosed false b := by
  induction a with
  | nil =>
    intro q h
    cases q with
    | false => rfl
    | true => simp [quotesClosed] at h
  | cons c a ih =>
    intro q h
    rw [quotesClosed] at h
    rw [List.cons_append, quotesClosed]
    exact ih _ h

/-! ## Parts -/

/-- The number of open parentheses after the tokens. -/
def depthAfter : Nat → List Tok → Nat
  | n, [] => n
  | n, t :: l => depthAfter (deeper n t) l

theorem balanced_depth (l : List Tok) : ∀ n, balanced n l = true → depthAfter n l = 0 := by
  induction l with
  | nil => intro n h; simpa [balanced, depthAfter] using h
  | cons t l ih =>
    intro n h
    rw [depthAfter]
    cases t with
    | lpar => exact ih _ (by simpa [balanced, deeper] using h)
    | rpar =>
      cases n with
      | zero => simp [balanced] at h
      | succ n => exact ih n (by simpa [balanced, deeper] using h)
    | or => exact ih _ (by simpa [balanced, deeper] using h)
    | and => exact ih _ (by simpa [balanced, deeper] using h)
    | word w => exact ih _ (by simpa [balanced, deeper] using h)

theorem balanced_append (a b : List Tok) : ∀ n, balanced n a = true → balanced n (a ++ b) = balanced 0 b := by
  induction a with
  | nil =>
    intro n h
    have : n = 0 := by simpa [balanced] using h
    rw [this]; rfl
  | cons t a ih =>
    intro n h
    cases t with
    | lpar => simpa [balanced] using ih _ (by simpa [balanced] using h)
    | rpar =>
      cases n with
      | zero => simp [balanced] at h
      | succ n => simpa [balanced] using ih n (by simpa [balanced] using h)
    | or => simpa [balanced] using ih _ (by simpa [balanced] using h)
    | and => simpa [balanced] using ih _ (by simpa [balanced] using h)
    | word w => simpa [balanced] using ih _ (by simpa [balanced] using h)

theorem balanced_more (a b : List Tok) (m : Nat) : ∀ n, balanced n a = true → balanced (n + m) (a ++ b) = balanced m b := by
  induction a with
  | nil =>
    intro n h
    have : n = 0 := by simpa [balanced] using h
    rw [this, Nat.zero_add]; rfl
  | cons t a ih =>
    intro n h
    cases t with
    | lpar =>
      have := ih (n + 1) (by simpa [balanced] using h)
      rw [show n + 1 + m = n + m + 1 by omega] at this
      simpa [balanced] using this
    | rpar =>
      cases n with
      | zero => simp [balanced] at h
      | succ n =>
        have := ih n (by simpa [balanced] using h)
        rw [show n + 1 + m = n + m + 1 by omega]
        simpa [balanced] using this
    | or => simpa [balanced] using ih _ (by simpa [balanced] using h)
    | and => simpa [balanced] using ih _ (by simpa [balanced] using h)
    | word w => simpa [balanced] using ih _ (by simpa [balanced] using h)

theorem splitTop_ne_nil (s : Tok) (n : Nat) (l : List Tok) : splitTop s n l ≠ [] := by
  cases l with
  | nil => simp [splitTop]
  | cons t l =>
    rw [splitTop]
    split
    · simp
    · cases splitTop s (deeper n t) l <;> simp [addFirst]

theorem addFirst_append (t : Tok) (x y : List (List Tok)) (h : x ≠ []) : addFirst t (x ++ y) = addFirst t x ++ y := by
  cases x with
  | nil => exact absurd rfl h
  | cons p ps => rfl

/-- A separator outside parentheses separates. -/
theorem splitTop_sep (s : Tok) (a b : List Tok) : ∀ n, depthAfter n a = 0 → splitTop s n (a ++ s :: b) = splitTop s n a ++ splitTop s 0 b := by
  induction a with
  | nil =>
    intro n h
    have h : n = 0 := h
    subst h
    simp [splitTop]
  | cons t a ih =>
    intro n h
    rw [List.cons_append, splitTop, splitTop]
    by_cases hc : n = 0 ∧ t = s
    · rw [if_pos hc, if_pos hc]
      obtain ⟨rfl, rfl⟩ := hc
      have : depthAfter 0 a = 0 ∨ True := Or.inr trivial
      rw [List.cons_append]
      congr 1
      apply ih
      rw [depthAfter] at h
      cases t with
      | lpar =>
        -- an opening parenthesis as separator does not occur, but the depth decides
        exact depth_low a h
      | rpar => exact h
      | or => exact h
      | and => exact h
      | word w => exact h
    · rw [if_neg hc, if_neg hc, ih _ h, addFirst_append _ _ _ (splitTop_ne_nil _ _ _)]
where
  depth_low (a : List Tok) (h : depthAfter 1 a = 0) : depthAfter 0 a = 0 := by
    have mono : ∀ (l : List Tok) (m n : Nat), m ≤ n → depthAfter m l ≤ depthAfter n l := by
      intro l
      induction l with
      | nil => intro m n h; exact h
      | cons t l ih =>
        intro m n h
        rw [depthAfter, depthAfter]
        apply ih
        cases t <;> simp only [deeper] <;> omega
    have := mono a 0 1 (by omega)
    omega

/-- What comes before the first separator goes to the first part. -/
theorem splitTop_single (s : Tok) (l : List Tok) : ∀ n, (splitTop s n l).length = 1 → splitTop s n l = [l] := by
  induction l with
  | nil => intro n _; rfl
  | cons t l ih =>
    intro n h
    rw [splitTop] at h ⊢
    by_cases hc : n = 0 ∧ t = s
    · rw [if_pos hc] at h
      have : (splitTop s 0 l).length = 0 := by simpa using h
      exact absurd (List.length_eq_zero_iff.1 this) (splitTop_ne_nil _ _ _)
    · rw [if_neg hc] at h ⊢
      have : (splitTop s (deeper n t) l).length = 1 := by
        cases hx : splitTop s (deeper n t) l with
        | nil => exact absurd hx (splitTop_ne_nil _ _ _)
        | cons p ps => rw [hx] at h; simpa [addFirst] using h
      rw [ih _ this]
      rfl

/-- Two lists without separator, joined by something else. -/
theorem splitTop_join (s : Tok) (a b : List Tok) : ∀ n, (splitTop s n a).length = 1 → (splitTop s (depthAfter n a) b).length = 1 →
    (splitTop s n (a ++ b)).length = 1 := by
  induction a with
  | nil => intro n _ h; exact h
  | cons t a ih =>
    intro n h1 h2
    rw [List.cons_append]
    rw [splitTop] at h1 ⊢
    by_cases hc : n = 0 ∧ t = s
    · rw [if_pos hc] at h1
      have : (splitTop s 0 a).length = 0 := by simpa using h1
      exact absurd (List.length_eq_zero_iff.1 this) (splitTop_ne_nil _ _ _)
    · rw [if_neg hc] at h1 ⊢
      have len : ∀ x, x ≠ [] → (addFirst t x).length = x.length := by
        intro x hx
        cases x with
        | nil => exact absurd rfl hx
        | cons _ _ => rfl
      rw [len _ (splitTop_ne_nil _ _ _)] at h1 ⊢
      exact ih _ h1 h2

/-- Nothing separates inside parentheses. -/
theorem splitTop_deep (s : Tok) (a b : List Tok) : ∀ n, balanced n a = true → (splitTop s (n + 1) (a ++ Tok.rpar :: b)).length =
    (splitTop s 0 b).length := by
  have len : ∀ t x, x ≠ [] → (addFirst t x).length = x.length := by
    intro t x hx
    cases x with
    | nil => exact absurd rfl hx
    | cons _ _ => rfl
  induction a with
  | nil =>
    intro n h
    have : n = 0 := by simpa [balanced] using h
    subst this
    rw [List.nil_append, splitTop, if_neg (by simp), len _ _ (splitTop_ne_nil _ _ _)]
    rfl
  | cons t a ih =>
    intro n h
    rw [List.cons_append, splitTop, if_neg (by simp), len _ _ (splitTop_ne_nil _ _ _)]
    cases t with
    | lpar => exact ih (n + 1) (by simpa [balanced] using h)
    | rpar =>
      cases n with
      | zero => simp [balanced] at h
      | succ n => exact ih n (by simpa [balanced] using h)
    | or => exact ih n (by simpa [balanced] using h)
    | and => exact ih n (by simpa [balanced] using h)
    | word w => exact ih n (by simpa [balanced] using h)

/-- A text in parentheses is one part. -/
theorem splitTop_paren (s : Tok) (hs : s = .or ∨ s = .and) (a : List Tok) (h : balanced 0 a = true) :
    (splitTop s 0 (Tok.lpar :: a ++ [Tok.rpar])).length = 1 := by
  have hne : ¬ ((0 : Nat) = 0 ∧ Tok.lpar = s) := by
    rcases hs with h | h <;> rw [h] <;> simp
  rw [List.cons_append, splitTop, if_neg hne]
  have := splitTop_deep s a [] 0 h
  cases hx : splitTop s (deeper 0 Tok.lpar) (a ++ [Tok.rpar]) with
  | nil => exact absurd hx (splitTop_ne_nil _ _ _)
  | cons p ps =>
    have e : splitTop s (0 + 1) (a ++ [Tok.rpar]) = p :: ps := hx
    rw [e] at this
    simpa [addFirst, splitTop] using this

theorem depth_paren (a : List Tok) (h : balanced 0 a = true) : balanced 0 (Tok.lpar :: a ++ [Tok.rpar]) = true := by
  have := balanced_more a [Tok.rpar] 1 0 h
  rw [List.cons_append]
  show balanced 1 (a ++ [Tok.rpar]) = true
  rw [show (1 : Nat) = 0 + 1 by rfl, this]
  rfl

/-! ## Values -/

theorem parts_length (s : Tok) (l : List Tok) : ∀ n, ∀ p ∈ splitTop s n l, p.length ≤ l.length := by
  induction l with
  | nil => intro n p hp; simp [splitTop] at hp; simp [hp]
  | cons t l ih =>
    intro n p hp
    rw [splitTop] at hp
    split at hp
    · rcases List.mem_cons.1 hp with e | e
      · rw [e]; simp
      · exact Nat.le_succ_of_le (ih _ _ e)
    · cases hx : splitTop s (deeper n t) l with
      | nil => exact absurd hx (splitTop_ne_nil _ _ _)
      | cons q qs =>
        rw [hx] at hp
        rcases List.mem_cons.1 hp with e | e
        · rw [e]
          have := ih (deeper n t) q (by rw [hx]; simp)
          simpa using this
        · exact Nat.le_succ_of_le (ih (deeper n t) p (by rw [hx]; exact List.mem_cons_of_mem _ e))

theorem inside_length (f i : List Tok) (h : inside f = some i) : i.length < f.length := by
  unfold inside at h
  split at h
  · split at h
    · rw [← Option.some.inj h]
      simp only [List.length_dropLast, List.length_cons]
      omega
    · exact absurd h (by simp)
  · exact absurd h (by simp)

theorem any_agree {α : Type} (f g : α → Bool) (l : List α) (h : ∀ x ∈ l, f x = g x) : l.any f = l.any g := by
  induction l with
  | nil => rfl
  | cons a l ih => rw [List.any_cons, List.any_cons, h a (by simp), ih (fun x hx => h x (List.mem_cons_of_mem _ hx))]

theorem all_agree {α : Type} (f g : α → Bool) (l : List α) (h : ∀ x ∈ l, f x = g x) : l.all f = l.all g := by
  induction l with
  | nil => rfl
  | cons a l ih => rw [List.all_cons, List.all_cons, h a (by simp), ih (fun x hx => h x (List.mem_cons_of_mem _ hx))]

/-- The number of levels does not matter once it is large enough. -/
theorem value_enough (val : List Tok → Bool) : ∀ (k : Nat) (q : List Tok), q.length < k → value val k q = holdsToks val q := by
  intro k
  induction k using Nat.strongRecOn with
  | ind k ih =>
    intro q hq
    cases k with
    | zero => omega
    | succ k =>
      unfold holdsToks
      rw [value, value]
      apply any_agree
      intro d hd
      apply all_agree
      intro f hf
      have l1 := parts_length .or q 0 d hd
      have l2 := parts_length .and d 0 f hf
      cases hi : inside f with
      | none => rfl
      | some i =>
        have l3 := inside_length f i hi
        show value val k i = value val q.length i
        rw [ih k (by omega) i (by omega)]
        by_cases hk : q.length < k + 1 ∧ q.length = k
        · rw [hk.2, ih k (by omega) i (by omega)]
        · rw [ih q.length (by omega) i (by omega)]

/-- The value of one part: in parentheses or elementary. -/
def factor (val : List Tok → Bool) (f : List Tok) : Bool :=
  match inside f with
  | some i => holdsToks val i
  | none => val f

/-- The value of a condition, without the number of levels. -/
theorem holdsToks_eq (val : List Tok → Bool) (q : List Tok) :
    holdsToks val q = (splitTop .or 0 q).any (fun d => (splitTop .and 0 d).all (factor val)) := by
  unfold holdsToks
  rw [value]
  apply any_agree
  intro d hd
  apply all_agree
  intro f hf
  have l1 := parts_length .or q 0 d hd
  have l2 := parts_length .and d 0 f hf
  unfold factor
  cases hi : inside f with
  | none => rfl
  | some i =>
    have l3 := inside_length f i hi
    exact value_enough val q.length i (by omega)

theorem holdsToks_noOr (val : List Tok → Bool) (q : List Tok) (h : (splitTop .or 0 q).length = 1) :
    holdsToks val q = (splitTop .and 0 q).all (factor val) := by
  rw [holdsToks_eq, splitTop_single .or q 0 h]
  simp

/-- Two conditions without OR outside parentheses, joined by AND. -/
theorem holdsToks_and (val : List Tok → Bool) (a b : List Tok) (ha : balanced 0 a = true)
    (na : (splitTop .or 0 a).length = 1) (nb : (splitTop .or 0 b).length = 1) :
    holdsToks val (a ++ Tok.and :: b) = (holdsToks val a && holdsToks val b) ∧ (splitTop .or 0 (a ++ Tok.and :: b)).length = 1 := by
  have hd := balanced_depth a 0 ha
  have nab : (splitTop .or 0 (a ++ Tok.and :: b)).length = 1 := by
    apply splitTop_join _ _ _ 0 na
    rw [hd, splitTop, if_neg (by simp)]
    show (addFirst Tok.and (splitTop .or 0 b)).length = 1
    rw [splitTop_single .or b 0 nb]
    rfl
  refine ⟨?_, nab⟩
  rw [holdsToks_noOr val _ nab, holdsToks_noOr val a na, holdsToks_noOr val b nb, splitTop_sep .and a b 0 hd, List.all_append]

/-- A condition in parentheses has the value of the condition. -/
theorem holdsToks_paren (val : List Tok → Bool) (a : List Tok) (ha : balanced 0 a = true) :
    holdsToks val (Tok.lpar :: a ++ [Tok.rpar]) = holdsToks val a := by
  rw [holdsToks_noOr val _ (splitTop_paren .or (Or.inl rfl) a ha), splitTop_single .and _ 0 (splitTop_paren .and (Or.inr rfl) a ha)]
  have : inside (Tok.lpar :: a ++ [Tok.rpar]) = some a := by
    show (if (a ++ [Tok.rpar]).getLast? = some Tok.rpar ∧ balanced 0 (a ++ [Tok.rpar]).dropLast = true then
      some (a ++ [Tok.rpar]).dropLast else none) = some a
    simp [ha]
  rw [List.all_cons, List.all_nil, Bool.and_true]
  unfold factor
  rw [this]

/-! ## Texts -/

/-- **A text in parentheses followed by AND and a condition.** The well-formed text of a user put in parentheses and completed by a
condition without OR: both hold. -/
theorem holds_paren_and (val : List Tok → Bool) (a b : List Char) (ha : Closed a) (nb : NoOr b) :
    Holds val (txt "(" ++ a ++ txt ") AND " ++ b) ↔ Holds val a ∧ Holds val b := by
  unfold Holds
  rw [lex_paren_and a b ha.1, (holdsToks_and val _ _ (depth_paren _ ha.2) (splitTop_paren .or (Or.inl rfl) _ ha.2) nb).1,
    holdsToks_paren val _ ha.2, Bool.and_eq_true]

/-- The same without parentheses, if the first text has no OR. -/
theorem holds_and (val : List Tok → Bool) (a b : List Char) (ha : Closed a) (na : NoOr a) (nb : NoOr b) :
    Holds val (a ++ txt " AND " ++ b) ↔ Holds val a ∧ Holds val b := by
  unfold Holds
  rw [lex_and a b ha.1, (holdsToks_and val _ _ ha.2 na nb).1, Bool.and_eq_true]

/-- The result is again well-formed and without OR. -/
theorem closed_paren_and (a b : List Char) (ha : Closed a) (hb : Closed b) (nb : NoOr b) :
    Closed (txt "(" ++ a ++ txt ") AND " ++ b) ∧ NoOr (txt "(" ++ a ++ txt ") AND " ++ b) := by
  refine ⟨⟨?_, ?_⟩, ?_⟩
  · have e : txt "(" ++ a ++ txt ") AND " ++ b = '(' :: (a ++ (txt ") AND " ++ b)) := by simp [txt]
    rw [e, quotesClosed, if_neg (by decide), quotesClosed_append a _ false ha.1,
      quotesClosed_append (txt ") AND ") b false (by decide)]
    exact hb.1
  · rw [lex_paren_and a b ha.1, balanced_append _ _ 0 (depth_paren _ ha.2)]
    exact hb.2
  · unfold NoOr
    rw [lex_paren_and a b ha.1]
    exact (holdsToks_and (fun _ => true) _ _ (depth_paren _ ha.2) (splitTop_paren .or (Or.inl rfl) _ ha.2) nb).2

/-- The elementary conditions on a resource given by its columns: `column='VALUE'` holds if the value is the one of the column. -/
def columns (v : String → String) (f : List Tok) : Bool :=
  match f with
  | [.word w] => match (String.ofList w).splitOn "=" with
    | [c, x] => x = "'" ++ v c ++ "'"
    | _ => false
  | _ => false

/-- Not vacuous: a condition with OR and parentheses, completed by a condition of the administrator. -/
example : Closed (txt "a='1' OR (b='2' AND c='x) OR')") ∧ NoOr (txt "drain='NO'") ∧ Closed (txt "drain='NO'") := by
  simp only [Closed, NoOr, txt, String.reduceToList]
  decide +kernel

/-- The parentheses of the user may be used to escape: `a) OR (b` is not well-formed, and the condition added is not required. -/
theorem holds_paren_and_unbalanced : let q := txt "(" ++ txt "host='a') OR (host='b'" ++ txt ") AND " ++ txt "drain='NO'"
    ∃ val, Holds val q ∧ ¬ Holds val (txt "drain='NO'") := by
  refine ⟨fun f => f = [.word (txt "host='a'")], ?_⟩
  simp only [Holds, txt, String.reduceToList]
  decide +kernel

end Oar.Sql
