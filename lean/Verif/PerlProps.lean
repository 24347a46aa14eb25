import Verif.ToolsProps

/-!
# C46: the dictionaries sent to the remote executor

The specification is a reader of Perl literals: single-quoted strings, integers, `undef`, hashes and arrays of hashes.
-/

namespace Oar.Tools

/-! ## Specification: reading a Perl literal -/

/-- The content of a single-quoted Perl string, after the opening quote, and what follows the closing one: `\\` and `\'` stand for
`\` and `'`, any other `\` is literal. -/
def readQuoted : List Char → Option (List Char × List Char)
  | [] => none
  | c :: r =>
    if c = '\'' then some ([], r)
    else if c = '\\' then
      match r with
      | [] => none
      | d :: r' =>
        if d = '\\' ∨ d = '\'' then (readQuoted r').map (fun p => (d :: p.1, p.2))
        else (readQuoted (d :: r')).map (fun p => (c :: p.1, p.2))
    else (readQuoted r).map (fun p => (c :: p.1, p.2))

/-- Spaces are skipped. -/
def skip (l : List Char) : List Char := l.dropWhile (fun c => c == ' ')

/-- `some r` if `l` is `p` followed by `r`. -/
def after (p l : List Char) : Option (List Char) := if p.isPrefixOf l then some (l.drop p.length) else none

/-- A decimal integer and what follows. -/
def readInt (l : List Char) : Option (Int × List Char) :=
  match l with
  | [] => none
  | c :: r =>
    if c = '-' then (pyNat (r.takeWhile Char.isDigit)).map (fun n => (-(n : Int), r.dropWhile Char.isDigit))
    else (pyNat (l.takeWhile Char.isDigit)).map (fun n => ((n : Int), l.dropWhile Char.isDigit))

mutual
/-- A value and what follows; the first argument bounds the depth of the recursion. -/
def readV : Nat → List Char → Option (PV × List Char)
  | 0, _ => none
  | f + 1, l =>
    match skip l with
    | [] => none
    | c :: r =>
      if c = '\'' then (readQuoted r).map (fun p => (PV.str p.1, p.2))
      else if c = '{' then
        match after ['}'] (skip r) with
        | some r' => some (.dict .nil, r')
        | none => (readItems f r).map (fun p => (PV.dict p.1, p.2))
      else if c = 'u' then (after (txt "ndef") r).map (fun r' => (PV.undef, r'))
      else (readInt (c :: r)).map (fun p => (PV.num p.1, p.2))
/-- The items of a hash up to the closing brace, and what follows. -/
def readItems : Nat → List Char → Option (PDict × List Char)
  | 0, _ => none
  | f + 1, l =>
    (after ['\''] (skip l)).bind fun r1 =>
    (readQuoted r1).bind fun k =>
    (after ['=', '>'] (skip k.2)).bind fun r2 =>
    (readV f r2).bind fun v =>
    match after [','] (skip v.2) with
    | some r3 => (readItems f r3).map (fun p => (PDict.cons k.1 v.1 p.1, p.2))
    | none => (after ['}'] (skip v.2)).map (fun r3 => (PDict.cons k.1 v.1 .nil, r3))
end

mutual
/-- Perl has no boolean: 1 or 0. -/
def PV.norm : PV → PV
  | .undef => .undef
  | .str s => .str s
  | .bool b => .num (if b then 1 else 0)
  | .num n => .num n
  | .dict d => .dict d.norm
def PDict.norm : PDict → PDict
  | .nil => .nil
  | .cons k v r => .cons k v.norm r.norm
end

/-- No `\` is last, nor before `\` or `'`. -/
def Safe : List Char → Prop
  | [] => True
  | c :: r => (c = '\\' → ∃ d r', r = d :: r' ∧ d ≠ '\\' ∧ d ≠ '\'') ∧ Safe r

mutual
/-- All the strings are safe, and the keys have no `'` either. -/
def PV.Good : PV → Prop
  | .undef => True
  | .str s => Safe s
  | .bool _ => True
  | .num _ => True
  | .dict d => d.Good
def PDict.Good : PDict → Prop
  | .nil => True
  | .cons k v r => Safe k ∧ '\'' ∉ k ∧ v.Good ∧ r.Good
end

mutual
/-- A sufficient depth for the reader. -/
def PV.depth : PV → Nat
  | .dict d => d.depth + 1
  | _ => 1
def PDict.depth : PDict → Nat
  | .nil => 0
  | .cons _ v r => v.depth + r.depth + 1
end

/-! ## Lemmas -/

theorem readQuoted_escape : ∀ (s rest : List Char), Safe s → readQuoted (escape s ++ '\'' :: rest) = some (s, rest)
  | [], rest, _ => by
    show readQuoted ('\'' :: rest) = _
    unfold readQuoted
    rw [if_pos rfl]
  | c :: r, rest, h => by
    have ih := readQuoted_escape r rest h.2
    by_cases hq : c = '\''
    · subst hq
      show readQuoted ('\\' :: '\'' :: (escape r ++ '\'' :: rest)) = _
      rw [readQuoted, if_neg (by decide), if_pos rfl]
      rw [if_pos (Or.inr rfl), ih]
      rfl
    · have he : escape (c :: r) = c :: escape r := by
        unfold escape
        rw [List.flatMap_cons, if_neg hq]
        rfl
      rw [he]
      show readQuoted (c :: (escape r ++ '\'' :: rest)) = _
      by_cases hb : c = '\\'
      · obtain ⟨d, r', hr, h1, h2⟩ := h.1 hb
        have he' : escape r = d :: escape r' := by
          rw [hr]
          unfold escape
          rw [List.flatMap_cons, if_neg h2]
          rfl
        rw [he'] at ih ⊢
        rw [hb]
        show readQuoted ('\\' :: d :: (escape r' ++ '\'' :: rest)) = _
        rw [readQuoted, if_neg (by decide), if_pos rfl]
        rw [if_neg (by rintro (e | e) <;> contradiction)]
        rw [show d :: (escape r' ++ '\'' :: rest) = d :: escape r' ++ '\'' :: rest from rfl, ih]
        rfl
      · rw [readQuoted.eq_def]
        dsimp only
        rw [if_neg hq, if_neg hb, ih]
        rfl

theorem escape_id {k : List Char} (h : '\'' ∉ k) : escape k = k := by
  induction k with
  | nil => rfl
  | cons c r ih =>
    have hc : c ≠ '\'' := fun e => h (by rw [e]; simp)
    unfold escape at ih ⊢
    rw [List.flatMap_cons, if_neg hc, ih (fun hm => h (List.mem_cons_of_mem _ hm))]
    rfl

theorem readQuoted_key {k : List Char} (hs : Safe k) (hq : '\'' ∉ k) (rest : List Char) : readQuoted (k ++ '\'' :: rest) = some (k, rest) := by
  have := readQuoted_escape k rest hs
  rw [escape_id hq] at this
  exact this

/-- What follows a value: nothing, or something that is neither a digit. -/
def NoDigit (rest : List Char) : Prop := ∀ c r, rest = c :: r → c.isDigit = false

theorem takeWhile_digits (l rest : List Char) (hl : l.all Char.isDigit = true) (hr : NoDigit rest) :
    (l ++ rest).takeWhile Char.isDigit = l ∧ (l ++ rest).dropWhile Char.isDigit = rest := by
  induction l with
  | nil =>
    cases rest with
    | nil => exact ⟨rfl, rfl⟩
    | cons c r =>
      have := hr c r rfl
      simp [this]
  | cons c l ih =>
    simp only [List.all_cons, Bool.and_eq_true] at hl
    obtain ⟨h1, h2⟩ := ih hl.2
    constructor
    · show List.takeWhile Char.isDigit (c :: (l ++ rest)) = _
      rw [List.takeWhile_cons, if_pos hl.1, h1]
    · show List.dropWhile Char.isDigit (c :: (l ++ rest)) = _
      rw [List.dropWhile_cons, if_pos hl.1, h2]

theorem digits_head (n : Nat) : ∃ c r, digits n = c :: r ∧ c.isDigit = true ∧ c ≠ '-' := by
  obtain ⟨h1, h2, _, h4⟩ := digits_spec n
  cases hd : digits n with
  | nil => exact absurd hd h1
  | cons c r =>
    rw [hd] at h2 h4
    simp only [List.all_cons, Bool.and_eq_true] at h2
    exact ⟨c, r, rfl, h2.1, (h4 c (by simp)).2.1⟩

theorem readInt_str (n : Int) (rest : List Char) (hr : NoDigit rest) : readInt (str n ++ rest) = some (n, rest) := by
  obtain ⟨_, h2, _, _⟩ := digits_spec n.natAbs
  obtain ⟨t1, t2⟩ := takeWhile_digits (digits n.natAbs) rest h2 hr
  unfold str
  split
  · rename_i h
    show readInt ('-' :: (digits n.natAbs ++ rest)) = _
    unfold readInt
    dsimp only
    rw [if_pos rfl, t1, t2, pyNat_digits]
    show some (-(n.natAbs : Int), rest) = _
    congr 2
    omega
  · rename_i h
    obtain ⟨c, r, hd, _, hc⟩ := digits_head n.natAbs
    rw [hd] at t1 t2 ⊢
    show readInt (c :: (r ++ rest)) = _
    unfold readInt
    dsimp only
    rw [if_neg hc]
    rw [show c :: (r ++ rest) = c :: r ++ rest from rfl, t1, t2, ← hd, pyNat_digits]
    show some ((n.natAbs : Int), rest) = _
    congr 2
    omega

theorem str_head (n : Int) : ∃ c r, str n = c :: r ∧ c ≠ ' ' ∧ c ≠ '\'' ∧ c ≠ '{' ∧ c ≠ 'u' := by
  have hdig : ∀ c : Char, c.isDigit = true → c ≠ ' ' ∧ c ≠ '\'' ∧ c ≠ '{' ∧ c ≠ 'u' := by
    intro c hc
    refine ⟨?_, ?_, ?_, ?_⟩ <;> rintro rfl <;> exact absurd hc (by decide)
  unfold str
  split
  · exact ⟨'-', _, rfl, by decide, by decide, by decide, by decide⟩
  · obtain ⟨c, r, hd, h1, _⟩ := digits_head n.natAbs
    exact ⟨c, r, hd, hdig c h1⟩

theorem skip_cons {c : Char} (r : List Char) (h : c ≠ ' ') : skip (c :: r) = c :: r := by
  unfold skip
  rw [List.dropWhile_cons, if_neg (by simpa using h)]

theorem after_append (p l : List Char) : after p (p ++ l) = some l := by
  unfold after
  rw [if_pos (by simp), List.drop_left]

theorem after_cons (c : Char) (l : List Char) : after [c] (c :: l) = some l := after_append [c] l

theorem after_cons_ne {c d : Char} (l : List Char) (h : c ≠ d) : after [c] (d :: l) = none := by
  unfold after
  rw [if_neg (by simp [h])]

/-- The items without the last comma. -/
def body : PDict → List Char
  | .nil => []
  | .cons k v .nil => txt "'" ++ k ++ txt "' => " ++ perlV v
  | .cons k v (.cons k' v' r') => txt "'" ++ k ++ txt "' => " ++ perlV v ++ [','] ++ body (.cons k' v' r')

theorem perlItems_body : ∀ (k : List Char) (v : PV) (r : PDict), perlItems (.cons k v r) = body (.cons k v r) ++ [',']
  | k, v, .nil => by simp [perlItems, body]
  | k, v, .cons k' v' r' => by
    have := perlItems_body k' v' r'
    rw [perlItems, body, this]
    simp

theorem perlV_dict (k : List Char) (v : PV) (r : PDict) : perlV (.dict (.cons k v r)) = '{' :: (body (.cons k v r) ++ ['}']) := by
  have h : txt "'" ++ k ++ txt "' => " ++ perlV v ++ [','] ++ perlItems r = body (.cons k v r) ++ [','] := by
    rw [← perlItems_body, perlItems]
  rw [perlV, h, ← List.cons_append, List.dropLast_concat]
  rfl

theorem perlHash_body (k : List Char) (v : PV) (r : PDict) : perlHash (.cons k v r) = '{' :: (body (.cons k v r) ++ ['}']) := by
  unfold perlHash
  rw [perlItems_body, ← List.cons_append, List.dropLast_concat]
  rfl

theorem noDigit_cons {c : Char} (r : List Char) (h : c.isDigit = false) : NoDigit (c :: r) := by
  intro c' r' e
  rw [← (List.cons.inj e).1]
  exact h

theorem body_head (k : List Char) (v : PV) (r : PDict) : ∃ t, body (.cons k v r) = '\'' :: (k ++ '\'' :: ' ' :: '=' :: '>' :: ' ' :: (perlV v ++ t)) ∧
    (r = .nil → t = []) ∧ (∀ k' v' r', r = .cons k' v' r' → t = ',' :: body r) := by
  cases r with
  | nil =>
    refine ⟨[], ?_, fun _ => rfl, fun _ _ _ e => by cases e⟩
    simp [body, txt]
  | cons k' v' r' =>
    refine ⟨',' :: body (.cons k' v' r'), ?_, (fun e => by cases e), fun _ _ _ _ => rfl⟩
    simp [body, txt]

theorem skip_space (l : List Char) : skip (' ' :: l) = skip l := by
  unfold skip
  rw [List.dropWhile_cons, if_pos (by simp)]

theorem skip_comma (l : List Char) : skip (',' :: l) = ',' :: l := skip_cons l (by decide)
theorem skip_brace (l : List Char) : skip ('}' :: l) = '}' :: l := skip_cons l (by decide)

theorem readV_space (f : Nat) (l : List Char) : readV f (' ' :: l) = readV f l := by
  cases f with
  | zero => simp [readV]
  | succ f => simp only [readV, skip_space]

mutual
theorem readV_perl : ∀ (v : PV) (f : Nat) (rest : List Char), v.Good → v.depth ≤ f → NoDigit rest → readV f (perlV v ++ rest) = some (v.norm, rest)
  | .undef, f, rest, _, hf, _ => by
    obtain ⟨f, rfl⟩ : ∃ g, f = g + 1 := ⟨f - 1, by simp only [PV.depth] at hf; omega⟩
    show readV (f + 1) ('u' :: (txt "ndef" ++ rest)) = _
    rw [readV, skip_cons _ (by decide)]
    dsimp only
    rw [if_neg (by decide), if_neg (by decide), if_pos rfl, after_append]
    simp [PV.norm]
  | .str s, f, rest, hg, hf, _ => by
    obtain ⟨f, rfl⟩ : ∃ g, f = g + 1 := ⟨f - 1, by simp only [PV.depth] at hf; omega⟩
    have : perlV (.str s) ++ rest = '\'' :: (escape s ++ '\'' :: rest) := by simp [perlV]
    rw [this, readV, skip_cons _ (by decide)]
    dsimp only
    rw [if_pos rfl, readQuoted_escape s rest hg]
    simp [PV.norm]
  | .bool b, f, rest, _, hf, hr => by
    obtain ⟨f, rfl⟩ : ∃ g, f = g + 1 := ⟨f - 1, by simp only [PV.depth] at hf; omega⟩
    cases b with
    | true =>
      show readV (f + 1) ('1' :: rest) = _
      have h1 := readInt_str 1 rest hr
      rw [readV, skip_cons _ (by decide)]
      dsimp only
      rw [if_neg (by decide), if_neg (by decide), if_neg (by decide)]
      rw [show str 1 = ['1'] by decide] at h1
      rw [show '1' :: rest = ['1'] ++ rest from rfl, h1]
      simp [PV.norm]
    | false =>
      show readV (f + 1) ('0' :: rest) = _
      have h1 := readInt_str 0 rest hr
      rw [readV, skip_cons _ (by decide)]
      dsimp only
      rw [if_neg (by decide), if_neg (by decide), if_neg (by decide)]
      rw [show str 0 = ['0'] by decide] at h1
      rw [show '0' :: rest = ['0'] ++ rest from rfl, h1]
      simp [PV.norm]
  | .num n, f, rest, _, hf, hr => by
    obtain ⟨f, rfl⟩ : ∃ g, f = g + 1 := ⟨f - 1, by simp only [PV.depth] at hf; omega⟩
    obtain ⟨c, r, hd, h1, h2, h3, h4⟩ := str_head n
    have h := readInt_str n rest hr
    rw [hd] at h
    rw [show perlV (.num n) = str n by simp [perlV], hd]
    show readV (f + 1) (c :: (r ++ rest)) = _
    rw [readV, skip_cons _ h1]
    dsimp only
    rw [if_neg h2, if_neg h3, if_neg h4]
    rw [show c :: (r ++ rest) = c :: r ++ rest from rfl, h]
    simp [PV.norm]
  | .dict .nil, f, rest, _, hf, _ => by
    obtain ⟨f, rfl⟩ : ∃ g, f = g + 1 := ⟨f - 1, by simp only [PV.depth] at hf; omega⟩
    rw [show perlV (.dict .nil) = ['{', '}'] by simp [perlV]]
    show readV (f + 1) ('{' :: '}' :: rest) = _
    rw [readV, skip_cons _ (by decide)]
    dsimp only
    rw [if_neg (by decide), if_pos rfl, skip_brace, after_cons]
    simp [PV.norm, PDict.norm]
  | .dict (.cons k v r), f, rest, hg, hf, _ => by
    obtain ⟨f, rfl⟩ : ∃ g, f = g + 1 := ⟨f - 1, by simp only [PV.depth] at hf; omega⟩
    have hd : (PDict.cons k v r).depth ≤ f := by simp only [PV.depth] at hf; omega
    have hi := readItems_perl k v r f rest hg hd
    rw [perlV_dict]
    have : '{' :: (body (.cons k v r) ++ ['}']) ++ rest = '{' :: (body (.cons k v r) ++ '}' :: rest) := by simp
    rw [this, readV, skip_cons _ (by decide)]
    dsimp only
    rw [if_neg (by decide), if_pos rfl]
    obtain ⟨t, ht, _⟩ := body_head k v r
    have hb : after ['}'] (skip (body (.cons k v r) ++ '}' :: rest)) = none := by
      rw [ht]
      show after ['}'] (skip ('\'' :: _)) = none
      rw [skip_cons _ (by decide), after_cons_ne _ (by decide)]
    rw [hb]
    dsimp only
    rw [hi]
    simp [PV.norm]
theorem readItems_perl : ∀ (k : List Char) (v : PV) (r : PDict) (f : Nat) (rest : List Char), (PDict.cons k v r).Good → (PDict.cons k v r).depth ≤ f →
    readItems f (body (.cons k v r) ++ '}' :: rest) = some ((PDict.cons k v r).norm, rest)
  | k, v, .nil, f, rest, hg, hf => by
    obtain ⟨f, rfl⟩ : ∃ g, f = g + 1 := ⟨f - 1, by simp only [PDict.depth] at hf; omega⟩
    have hg' : Safe k ∧ '\'' ∉ k ∧ v.Good ∧ PDict.nil.Good := by simpa [PDict.Good] using hg
    have hv := readV_perl v f ('}' :: rest) hg'.2.2.1 (by simp only [PDict.depth] at hf; omega) (noDigit_cons _ (by decide))
    obtain ⟨t, ht, ht0, _⟩ := body_head k v .nil
    rw [ht, ht0 rfl, readItems]
    simp only [List.cons_append, List.append_assoc, List.append_nil]
    rw [skip_cons _ (by decide), after_cons, Option.bind_some, readQuoted_key hg'.1 hg'.2.1, Option.bind_some]
    dsimp only
    rw [skip_space, skip_cons _ (by decide), show '=' :: '>' :: ' ' :: (perlV v ++ '}' :: rest) = ['=', '>'] ++ ' ' :: (perlV v ++ '}' :: rest) from rfl,
      after_append, Option.bind_some, readV_space, hv, Option.bind_some]
    dsimp only
    rw [skip_brace, after_cons_ne _ (by decide)]
    dsimp only
    rw [after_cons]
    simp [PDict.norm]
  | k, v, .cons k' v' r', f, rest, hg, hf => by
    obtain ⟨f, rfl⟩ : ∃ g, f = g + 1 := ⟨f - 1, by simp only [PDict.depth] at hf; omega⟩
    have hg' : Safe k ∧ '\'' ∉ k ∧ v.Good ∧ (PDict.cons k' v' r').Good := by
      rw [PDict.Good] at hg; exact hg
    have hfd : v.depth + (PDict.cons k' v' r').depth + 1 ≤ f + 1 := by rw [PDict.depth] at hf; exact hf
    have hv := readV_perl v f (',' :: (body (.cons k' v' r') ++ '}' :: rest)) hg'.2.2.1 (by omega) (noDigit_cons _ (by decide))
    have hr := readItems_perl k' v' r' f rest hg'.2.2.2 (by omega)
    obtain ⟨t, ht, _, ht1⟩ := body_head k v (.cons k' v' r')
    rw [ht, ht1 k' v' r' rfl, readItems]
    simp only [List.cons_append, List.append_assoc]
    rw [skip_cons _ (by decide), after_cons, Option.bind_some, readQuoted_key hg'.1 hg'.2.1, Option.bind_some]
    dsimp only
    rw [skip_space, skip_cons _ (by decide), show '=' :: '>' :: ' ' :: (perlV v ++ ',' :: (body (.cons k' v' r') ++ '}' :: rest)) =
      ['=', '>'] ++ ' ' :: (perlV v ++ ',' :: (body (.cons k' v' r') ++ '}' :: rest)) from rfl,
      after_append, Option.bind_some, readV_space, hv, Option.bind_some]
    dsimp only
    rw [skip_comma, after_cons]
    dsimp only
    rw [hr]
    simp [PDict.norm]
end

/-! ## The theorems -/

/-- A non-empty dictionary with safe strings is read back exactly (booleans as 0 or 1), at any depth of nesting. -/
theorem perl_roundtrip_partial (k : List Char) (v : PV) (r : PDict) (h : (PDict.cons k v r).Good) (rest : List Char) :
    ∃ f, readV f (perlHash (.cons k v r) ++ rest) = some (.dict (PDict.cons k v r).norm, rest) := by
  refine ⟨(PDict.cons k v r).depth + 1, ?_⟩
  rw [perlHash_body, ← perlV_dict]
  by_cases hr : NoDigit rest
  · have := readV_perl (.dict (.cons k v r)) ((PDict.cons k v r).depth + 1) rest h (by rw [PV.depth]; exact Nat.le_refl _) hr
    rw [PV.norm] at this
    exact this
  · -- the closing brace ends the literal, whatever follows
    have hi := readItems_perl k v r (PDict.cons k v r).depth rest h (Nat.le_refl _)
    rw [perlV_dict]
    have : '{' :: (body (.cons k v r) ++ ['}']) ++ rest = '{' :: (body (.cons k v r) ++ '}' :: rest) := by simp
    rw [this, readV, skip_cons _ (by decide)]
    dsimp only
    rw [if_neg (by decide), if_pos rfl]
    obtain ⟨t, ht, _⟩ := body_head k v r
    have hb : after ['}'] (skip (body (.cons k v r) ++ '}' :: rest)) = none := by
      rw [ht]
      show after ['}'] (skip ('\'' :: _)) = none
      rw [skip_cons _ (by decide), after_cons_ne _ (by decide)]
    rw [hb]
    dsimp only
    rw [hi]
    simp

/-- Specification: the hashes of an array up to the closing bracket, and what follows. -/
def readDicts : Nat → List Char → Option (List PDict × List Char)
  | 0, _ => none
  | f + 1, l =>
    match readV f l with
    | some (.dict d, r) =>
      match after [','] (skip r) with
      | some r' => (readDicts f r').map (fun p => (d :: p.1, p.2))
      | none => (after [']'] (skip r)).map (fun r' => ([d], r'))
    | _ => none

/-- Specification: an array of hashes. -/
def readArray (f : Nat) (l : List Char) : Option (List PDict × List Char) := (after ['['] l).bind (readDicts f)

/-- What the reader of one hash needs. -/
def PDict.Ok (d : PDict) : Prop := d ≠ .nil ∧ d.Good

theorem readV_hash (d : PDict) (h : d.Ok) (f : Nat) (rest : List Char) (hf : d.depth + 1 ≤ f) (hr : NoDigit rest) :
    readV f (perlHash d ++ rest) = some (.dict d.norm, rest) := by
  cases d with
  | nil => exact absurd rfl h.1
  | cons k v r =>
    rw [perlHash_body, ← perlV_dict]
    have := readV_perl (.dict (.cons k v r)) f rest h.2 (by rw [PV.depth]; exact hf) hr
    rw [PV.norm] at this
    exact this

theorem readDicts_perl : ∀ (d : PDict) (l : List PDict) (rest : List Char), d.Ok → (∀ e ∈ l, e.Ok) →
    ∃ n, ∀ f, n ≤ f → readDicts f (((d :: l).flatMap (fun d => perlHash d ++ [','])).dropLast ++ ']' :: rest) = some ((d :: l).map PDict.norm, rest)
  | d, [], rest, hd, _ => by
    refine ⟨d.depth + 2, fun f hf => ?_⟩
    obtain ⟨g, rfl⟩ : ∃ g, f = g + 1 := ⟨f - 1, by omega⟩
    have : ([d].flatMap (fun d => perlHash d ++ [','])).dropLast ++ ']' :: rest = perlHash d ++ ']' :: rest := by
      simp only [List.flatMap_cons, List.flatMap_nil, List.append_nil, List.dropLast_concat]
    rw [this, readDicts, readV_hash d hd g _ (by omega) (noDigit_cons _ (by decide))]
    dsimp only
    rw [skip_cons _ (by decide), after_cons_ne _ (by decide)]
    dsimp only
    rw [after_cons]
    rfl
  | d, e :: l, rest, hd, hl => by
    obtain ⟨n, hn⟩ := readDicts_perl e l rest (hl e (by simp)) (fun x hx => hl x (by simp [hx]))
    refine ⟨max (d.depth + 1) n + 1, fun f hf => ?_⟩
    obtain ⟨g, rfl⟩ : ∃ g, f = g + 1 := ⟨f - 1, by omega⟩
    have : ((d :: e :: l).flatMap (fun d => perlHash d ++ [','])).dropLast ++ ']' :: rest =
        perlHash d ++ ',' :: (((e :: l).flatMap (fun d => perlHash d ++ [','])).dropLast ++ ']' :: rest) := by
      rw [List.flatMap_cons, List.dropLast_append_of_ne_nil (by simp)]
      simp
    rw [this, readDicts, readV_hash d hd g _ (by omega) (noDigit_cons _ (by decide))]
    dsimp only
    rw [skip_comma, after_cons]
    dsimp only
    rw [hn g (by omega)]
    rfl

/-- A non-empty list of non-empty dictionaries with safe strings is read back exactly. -/
theorem perl_array_roundtrip_partial (d : PDict) (l : List PDict) (rest : List Char) (hd : d.Ok) (hl : ∀ e ∈ l, e.Ok) :
    ∃ f, readArray f (perlArray (d :: l) ++ rest) = some ((d :: l).map PDict.norm, rest) := by
  obtain ⟨n, hn⟩ := readDicts_perl d l rest hd hl
  refine ⟨n, ?_⟩
  unfold readArray perlArray
  have hne : (d :: l).flatMap (fun d => perlHash d ++ [',']) ≠ [] := by simp
  rw [List.dropLast_cons_of_ne_nil hne]
  have := hn n (Nat.le_refl _)
  rw [List.append_assoc, List.cons_append, after_cons, Option.bind_some]
  exact this

/-- Strings without backslash are safe, quotes or not. -/
theorem safe_of_no_backslash : ∀ (s : List Char), '\\' ∉ s → Safe s
  | [], _ => trivial
  | c :: r, h => ⟨fun e => absurd (by rw [e]; simp) h, safe_of_no_backslash r (fun hm => h (List.mem_cons_of_mem _ hm))⟩

/-- The hypotheses are met by a nested dictionary with quotes in its values. -/
example : (PDict.cons (txt "cmd") (.str (txt "echo 'a b' c:\\d")) (.cons (txt "types") (.dict (.cons (txt "x") (.bool true) .nil))
    (.cons (txt "n") (.num (-12)) .nil))).Good := by
  simp only [PDict.Good, PV.Good, txt, String.reduceToList]
  refine ⟨safe_of_no_backslash _ (by decide), by decide, ?_, safe_of_no_backslash _ (by decide), by decide,
    ⟨safe_of_no_backslash _ (by decide), by decide, trivial, trivial⟩, safe_of_no_backslash _ (by decide), by decide, trivial, trivial⟩
  simp [Safe]

example : perlHash (.cons (txt "cmd") (.str (txt "a'b")) (.cons (txt "t") (.dict (.cons (txt "x") (.bool true) .nil)) .nil)) =
    txt "{'cmd' => 'a\\'b','t' => {'x' => 1}}" := by
  simp only [txt, String.reduceToList]
  decide

/-- The empty dictionary is not a literal. -/
theorem perl_empty_violated : perlHash .nil = ['}'] := by decide

/-- An empty list of resources neither. -/
theorem perl_empty_array_violated : perlArray [] = [']'] := by decide

/-- A value ending with a backslash swallows the closing quote: the string read is another one, with the following key in it. -/
theorem perl_backslash_violated :
    perlHash (.cons (txt "dir") (.str (txt "C:\\")) (.cons (txt "u") (.str (txt "bob")) .nil)) = txt "{'dir' => 'C:\\','u' => 'bob'}" ∧
    readQuoted (txt "C:\\','u' => 'bob'}") = some (txt "C:',", txt "u' => 'bob'}") := by
  simp only [txt, String.reduceToList]
  decide

/-- A backslash before a quote closes the string: the end of a value chosen by the user is read as Perl code. -/
theorem perl_injection_violated :
    perlHash (.cons (txt "cmd") (.str (txt "x\\', u => root, z => q(")) .nil) = txt "{'cmd' => 'x\\\\', u => root, z => q('}" ∧
    readQuoted (txt "x\\\\', u => root, z => q('}") = some (txt "x\\", txt ", u => root, z => q('}") := by
  simp only [txt, String.reduceToList]
  decide

end Oar.Tools
