import Verif.Config
import Verif.JobTypesProps
import Verif.ToolsProps

/-!
# C81: the configuration read is the one written
-/

namespace Oar.Config

open Oar.Tools Oar.JobTypes

/-! ## Text -/

/-- Neither the first nor the last character satisfies `p`. -/
def NoEdge (p : Char → Bool) (s : List Char) : Prop := (∀ c r, s = c :: r → p c = false) ∧ (∀ c r, s = r ++ [c] → p c = false)

theorem dropWhile_all (p : Char → Bool) : ∀ (a b : List Char), (∀ c ∈ a, p c = true) → (a ++ b).dropWhile p = b.dropWhile p
  | [], _, _ => rfl
  | c :: a, b, h => by
    rw [List.cons_append, List.dropWhile_cons, if_pos (h c List.mem_cons_self)]
    exact dropWhile_all p a b (fun x hx => h x (List.mem_cons_of_mem _ hx))

theorem dropWhile_none (p : Char → Bool) (c : Char) (s : List Char) (h : p c = false) : (c :: s).dropWhile p = c :: s := by
  rw [List.dropWhile_cons, if_neg (by simp [h])]

theorem stripBy_mid (p : Char → Bool) (a m b : List Char) (ha : ∀ c ∈ a, p c = true) (hb : ∀ c ∈ b, p c = true) (hm : NoEdge p m) :
    stripBy p (a ++ m ++ b) = m := by
  unfold stripBy
  rw [List.append_assoc, dropWhile_all p a _ ha]
  cases m with
  | nil =>
    rw [List.nil_append]
    have : b.dropWhile p = [] := by
      have := dropWhile_all p b [] hb
      rw [List.append_nil] at this
      rw [this]; rfl
    rw [this]; rfl
  | cons c m =>
    rw [List.cons_append, dropWhile_none p c _ (hm.1 c m rfl), ← List.cons_append, List.reverse_append,
      dropWhile_all p _ _ (fun x hx => hb x (List.mem_reverse.1 hx))]
    have hl : c :: m = (c :: m).dropLast ++ [(c :: m).getLast (by simp)] := (List.dropLast_concat_getLast (by simp)).symm
    have hp := hm.2 _ _ hl
    rw [hl, List.reverse_append]
    show (List.dropWhile p ((c :: m).getLast _ :: _)).reverse = _
    rw [dropWhile_none p _ _ hp]
    simp

theorem strip_id (p : Char → Bool) (s : List Char) (h : NoEdge p s) : stripBy p s = s := by
  have := stripBy_mid p [] s [] (by simp) (by simp) h
  simpa using this

theorem cut_none (c : Char) : ∀ s : List Char, cut c s = none ↔ c ∉ s
  | [] => by simp [cut]
  | x :: s => by
    rw [cut]
    by_cases h : x = c
    · rw [if_pos h]; simp [h]
    · rw [if_neg h, Option.map_eq_none_iff, cut_none c s]
      simp [Ne.symm h]

theorem cut_first (c : Char) (b : List Char) : ∀ a : List Char, c ∉ a → cut c (a ++ c :: b) = some (a, b)
  | [], _ => by rw [List.nil_append, cut, if_pos rfl]
  | x :: a, h => by
    rw [List.cons_append, cut, if_neg (fun hx : x = c => h (by rw [hx]; exact List.mem_cons_self)), cut_first c b a (fun hx => h (List.mem_cons_of_mem _ hx))]
    rfl

/-! ## Lines -/

/-- The name of a parameter. -/
structure Key (k : List Char) : Prop where
  plain : '=' ∉ k ∧ '#' ∉ k ∧ '\n' ∉ k
  edge : NoEdge Char.isWhitespace k

/-- Is the character a quote? -/
def quote (c : Char) : Bool := c == '"' || c == '\''

/-- A value that can be written between quotes. -/
structure Val (v : List Char) : Prop where
  plain : '#' ∉ v ∧ '\n' ∉ v
  edge : NoEdge quote v

/-- `KEY="value"`. -/
def line (k v : List Char) : List Char := k ++ '=' :: '"' :: v ++ ['"']

theorem quoted_edge (v : List Char) : NoEdge Char.isWhitespace ('"' :: v ++ ['"']) := by
  constructor
  · intro c r h
    have : '"' = c := (List.cons.inj h).1
    rw [← this]; decide
  · intro c r h
    have := List.append_inj_right' h rfl
    rw [← (List.cons.inj this).1]; decide

theorem loadLine_quoted (conf : List (List Char × Value)) (k v w : List Char) (hk : Key k) (hv : Val v) (hw : ∀ c ∈ w, c.isWhitespace = true)
    (rest : List Char) (hrest : rest = [] ∨ ∃ c, rest = '#' :: c) :
    loadLine conf (line k v ++ w ++ rest) = dictSet k (convert v) conf := by
  have hnl : '#' ∉ line k v ++ w := by
    unfold line
    simp only [List.mem_append, List.mem_cons, not_or]
    refine ⟨⟨⟨hk.plain.2.1, by decide, by decide, hv.plain.1⟩, by decide, by simp⟩, ?_⟩
    intro hx
    exact absurd (hw _ hx) (by decide)
  have hu : uncomment (line k v ++ w ++ rest) = line k v ++ w := by
    unfold uncomment
    rcases hrest with rfl | ⟨c, rfl⟩
    · rw [List.append_nil, (cut_none '#' _).2 hnl]
    · rw [cut_first '#' c _ hnl]
  unfold loadLine
  have e : line k v ++ w = k ++ '=' :: ('"' :: v ++ ['"'] ++ w) := by simp [line]
  rw [hu, e, cut_first '=' _ _ hk.plain.1]
  dsimp only
  have s1 : strip k = k := strip_id _ _ hk.edge
  have s2 : strip ('"' :: v ++ ['"'] ++ w) = '"' :: v ++ ['"'] := by
    have := stripBy_mid Char.isWhitespace [] ('"' :: v ++ ['"']) w (by simp) hw (quoted_edge v)
    unfold strip
    simpa using this
  have s3 : stripQuotes ('"' :: v ++ ['"']) = v := by
    have := stripBy_mid quote ['"'] v ['"'] (by decide) (by decide) hv.edge
    unfold stripQuotes
    exact this
  rw [s1, s2, s3]

/-- **C81.** A line without `=` before its comment changes nothing. -/
theorem comment_ignored (conf : List (List Char × Value)) (a c : List Char) (h : '=' ∉ a ∧ '#' ∉ a) :
    loadLine conf (a ++ '#' :: c) = conf ∧ loadLine conf a = conf := by
  unfold loadLine uncomment
  constructor
  · rw [cut_first '#' c a h.2]
    dsimp only
    rw [(cut_none '=' a).2 h.1]
  · rw [(cut_none '#' a).2 h.2]
    dsimp only
    rw [(cut_none '=' a).2 h.1]

/-! ## The file -/

theorem keys_dictSet {ν : Type} (k : List Char) (v : ν) : ∀ d : List (List Char × ν), (d.map Prod.fst).Nodup →
    ((dictSet k v d).map Prod.fst).Nodup ∧ ∀ x, x ∈ (dictSet k v d).map Prod.fst ↔ x = k ∨ x ∈ d.map Prod.fst
  | [], _ => by simp [dictSet]
  | (a, b) :: d, h => by
    rw [List.map_cons, List.nodup_cons] at h
    obtain ⟨h1, h2⟩ := keys_dictSet k v d h.2
    unfold dictSet
    by_cases ha : a = k
    · rw [if_pos ha, List.map_cons, List.nodup_cons]
      refine ⟨h, fun x => ?_⟩
      subst ha
      simp
    · rw [if_neg ha, List.map_cons, List.nodup_cons]
      refine ⟨⟨?_, h1⟩, fun x => ?_⟩
      · intro hx
        rcases (h2 a).1 hx with hx | hx
        · exact ha hx
        · exact h.1 hx
      · rw [List.mem_cons, h2 x, List.map_cons, List.mem_cons]
        constructor
        · rintro (h | h | h)
          · exact Or.inr (Or.inl h)
          · exact Or.inl h
          · exact Or.inr (Or.inr h)
        · rintro (h | h | h)
          · exact Or.inr (Or.inl h)
          · exact Or.inl h
          · exact Or.inr (Or.inr h)

theorem loadLine_nodup (conf : List (List Char × Value)) (l : List Char) (h : (conf.map Prod.fst).Nodup) : ((loadLine conf l).map Prod.fst).Nodup := by
  unfold loadLine
  split
  · exact h
  · exact (keys_dictSet _ _ _ h).1

theorem loadLines_nodup : ∀ (ls : List (List Char)) (conf : List (List Char × Value)), (conf.map Prod.fst).Nodup → ((ls.foldl loadLine conf).map Prod.fst).Nodup
  | [], _, h => h
  | l :: ls, conf, h => loadLines_nodup ls (loadLine conf l) (loadLine_nodup conf l h)

theorem lookup_none_of_not_mem {ν : Type} (k : List Char) : ∀ d : List (List Char × ν), k ∉ d.map Prod.fst → d.lookup k = none
  | [], _ => rfl
  | (a, b) :: d, h => by
    rw [List.map_cons, List.mem_cons] at h
    have : (k == a) = false := by simpa using fun e => h (Or.inl e)
    rw [List.lookup_cons, this]
    exact lookup_none_of_not_mem k d (fun hx => h (Or.inr hx))

theorem merge_lookup (k : List Char) : ∀ (d cfg : List (List Char × Value)), (d.map Prod.fst).Nodup →
    (d.foldl (fun c p => dictSet p.1 p.2 c) cfg).lookup k = (d.lookup k).or (cfg.lookup k)
  | [], cfg, _ => by simp
  | (a, b) :: d, cfg, h => by
    rw [List.map_cons, List.nodup_cons] at h
    rw [List.foldl_cons, merge_lookup k d _ h.2, lookup_dictSet, List.lookup_cons]
    by_cases hk : k = a
    · subst hk
      rw [lookup_none_of_not_mem k d h.1]
      simp
    · have : (k == a) = false := by simpa using hk
      rw [if_neg hk, this]

/-- What a file gives for a name is what its lines give, the last one first, then what was known. -/
theorem load_lookup (cfg : List (List Char × Value)) (file k : List Char) :
    (load cfg file).lookup k = (((split '\n' file).foldl loadLine []).lookup k).or (cfg.lookup k) := by
  unfold load
  exact merge_lookup k _ cfg (loadLines_nodup _ [] (by simp))

/-- The file written with one line for each parameter. -/
def written (es : List (List Char × List Char)) : List Char := es.flatMap (fun e => line e.1 e.2 ++ ['\n'])

theorem split_plain (c : Char) : ∀ w : List Char, c ∉ w → split c w = [w]
  | [], _ => rfl
  | x :: w, h => by
    rw [split, if_neg (fun hx : x = c => h (by rw [hx]; exact List.mem_cons_self)), split_plain c w (fun hx => h (List.mem_cons_of_mem _ hx))]

theorem split_append (c : Char) (v : List Char) : ∀ w : List Char, c ∉ w → split c (w ++ c :: v) = w :: split c v
  | [], _ => by rw [List.nil_append, split, if_pos rfl]
  | x :: w, h => by
    rw [List.cons_append, split, if_neg (fun hx : x = c => h (by rw [hx]; exact List.mem_cons_self)), split_append c v w (fun hx => h (List.mem_cons_of_mem _ hx))]

theorem split_written : ∀ es : List (List Char × List Char), (∀ e ∈ es, Key e.1 ∧ Val e.2) → split '\n' (written es) = es.map (fun e => line e.1 e.2) ++ [[]]
  | [], _ => rfl
  | e :: es, h => by
    obtain ⟨hk, hv⟩ := h e List.mem_cons_self
    have hn : '\n' ∉ line e.1 e.2 := by
      unfold line
      simp only [List.mem_append, List.mem_cons, not_or]
      exact ⟨⟨hk.plain.2.2, by decide, by decide, hv.plain.2⟩, by decide, by simp⟩
    have e1 : written (e :: es) = line e.1 e.2 ++ '\n' :: written es := by simp [written]
    rw [e1, split_append _ _ _ hn, split_written es (fun x hx => h x (List.mem_cons_of_mem _ hx))]
    rfl

theorem fold_lines (k : List Char) : ∀ (es : List (List Char × List Char)) (conf : List (List Char × Value)), (∀ e ∈ es, Key e.1 ∧ Val e.2) →
    ((es.map (fun e => line e.1 e.2)).foldl loadLine conf).lookup k = ((es.reverse.lookup k).map convert).or (conf.lookup k)
  | [], conf, _ => by simp
  | e :: es, conf, h => by
    obtain ⟨hk, hv⟩ := h e List.mem_cons_self
    have h1 := loadLine_quoted conf e.1 e.2 [] hk hv (by simp) [] (Or.inl rfl)
    rw [List.append_nil, List.append_nil] at h1
    rw [List.map_cons, List.foldl_cons, h1, fold_lines k es _ (fun x hx => h x (List.mem_cons_of_mem _ hx)), lookup_dictSet]
    have h2 : (e :: es).reverse.lookup k = (es.reverse.lookup k).or ([e].lookup k) := by
      rw [List.reverse_cons, List.lookup_append]
    rw [h2]
    obtain ⟨a, b⟩ := e
    by_cases hka : k = a
    · subst hka
      rw [if_pos rfl]
      cases es.reverse.lookup k <;> simp
    · have : (k == a) = false := by simpa using hka
      rw [if_neg hka]
      cases es.reverse.lookup k <;> simp [List.lookup_cons, this]

/-- **C81.** Every parameter written in the file has the value written last, and the others keep theirs. The names have no `=`, no `#` and no space around; the
values have no `#` and no quote at their ends. -/
theorem load_exact_partial (cfg : List (List Char × Value)) (es : List (List Char × List Char)) (h : ∀ e ∈ es, Key e.1 ∧ Val e.2) (k : List Char) :
    (load cfg (written es)).lookup k = ((es.reverse.lookup k).map convert).or (cfg.lookup k) := by
  rw [load_lookup, split_written es h, List.foldl_append, List.foldl_cons, List.foldl_nil]
  have : ∀ c, loadLine c [] = c := fun c => (comment_ignored c [] [] (by simp)).2
  rw [this, fold_lines k es [] h]
  simp

theorem underscores_none : ∀ s : List Char, '_' ∉ s → underscores s = true := by
  intro s
  fun_induction underscores s with
  | case1 a b r ih => intro h; exact absurd (List.mem_cons_of_mem _ List.mem_cons_self) h
  | case2 r h => intro h; exact absurd List.mem_cons_self h
  | case3 a h => intro h; exact absurd (List.mem_cons_of_mem _ List.mem_cons_self) h
  | case4 a r _ _ _ ih => intro h; exact ih (fun hx => h (List.mem_cons_of_mem _ hx))
  | case5 => intro _; rfl

theorem noEdge_of (p : Char → Bool) (s : List Char) (h : ∀ c ∈ s, p c = false) : NoEdge p s :=
  ⟨fun c r e => h c (by rw [e]; simp), fun c r e => h c (by rw [e]; simp)⟩

theorem digit_facts (c : Char) (h : c.isDigit = true) : c.isWhitespace = false ∧ c ≠ '_' ∧ c ≠ '-' ∧ c ≠ '+' := by
  refine ⟨?_, ?_, ?_, ?_⟩
  · cases hw : c.isWhitespace with
    | false => rfl
    | true =>
      unfold Char.isWhitespace at hw
      simp only [Bool.or_eq_true, decide_eq_true_eq] at hw
      rcases hw with ((hw | hw) | hw) | hw <;> (rw [hw] at h; exact absurd h (by decide))
  all_goals (rintro rfl; exact absurd h (by decide))

theorem unsign_digits (d : List Char) (h : d.all Char.isDigit = true) : unsign d = d := by
  cases d with
  | nil => rfl
  | cons c r =>
    have hc := (digit_facts c (List.all_eq_true.1 h c List.mem_cons_self)).2
    unfold unsign
    split
    · rename_i e; exact absurd (List.cons.inj e).1 hc.2.1
    · rename_i e; exact absurd (List.cons.inj e).1 hc.2.2
    · rfl

theorem numeral_digits (d : List Char) (h : d.all Char.isDigit = true) (hne : d ≠ []) : numeral d = true := by
  have h1 : d.dropWhile Char.isDigit = [] ∧ d.takeWhile Char.isDigit = d := by
    clear hne
    induction d with
    | nil => exact ⟨rfl, rfl⟩
    | cons c r ih =>
      rw [List.all_cons, Bool.and_eq_true] at h
      obtain ⟨a, b⟩ := ih h.2
      rw [List.dropWhile_cons, if_pos h.1, List.takeWhile_cons, if_pos h.1, a, b]
      exact ⟨rfl, rfl⟩
  unfold numeral
  rw [h1.1]
  dsimp only
  rw [h1.2]
  cases d with
  | nil => exact absurd rfl hne
  | cons c r => rfl

/-- Digits, possibly after a minus sign, are read as an integer. -/
theorem convert_digits (neg : Bool) (d : List Char) (h : d.all Char.isDigit = true) (hne : d ≠ []) :
    convert ((if neg then ['-'] else []) ++ d) = .int (if neg then - (val d : Int) else val d) := by
  have hd := fun c hc => digit_facts c (List.all_eq_true.1 h c hc)
  have hs : ∀ c ∈ (if neg then ['-'] else []) ++ d, c.isWhitespace = false ∧ c ≠ '_' := by
    intro c hc
    rcases List.mem_append.1 hc with hc | hc
    · cases neg
      · cases hc
      · rw [if_pos rfl] at hc; rw [List.mem_singleton.1 hc]; decide
    · exact ⟨(hd c hc).1, (hd c hc).2.1⟩
  have e1 : strip ((if neg then ['-'] else []) ++ d) = (if neg then ['-'] else []) ++ d := strip_id _ _ (noEdge_of _ _ (fun c hc => (hs c hc).1))
  have e2 : ((if neg then ['-'] else []) ++ d).filter (fun c => c ≠ '_') = (if neg then ['-'] else []) ++ d :=
    List.filter_eq_self.2 (fun c hc => by simpa using (hs c hc).2)
  have e3 : unsign ((if neg then ['-'] else []) ++ d) = d := by
    cases neg
    · exact unsign_digits d h
    · rfl
  have e4 : pyNat d = some (val d) := by unfold pyNat; rw [if_pos ⟨hne, h⟩]
  have e5 : pyInt ((if neg then ['-'] else []) ++ d) = some (if neg then - (val d : Int) else val d) := by
    cases neg
    · show pyInt d = _
      unfold pyInt
      split
      · exact absurd rfl (hd '-' List.mem_cons_self).2.2.1
      · exact absurd rfl (hd '+' List.mem_cons_self).2.2.2
      · rw [e4]; rfl
    · show (pyNat d).map (fun n => - (n : Int)) = _
      rw [e4]; rfl
  have e6 : isDecimal ((if neg then ['-'] else []) ++ d) = true := by
    unfold isDecimal
    dsimp only
    rw [e1, e2, e3, numeral_digits d h hne]
    rfl
  have e7 : toInt ((if neg then ['-'] else []) ++ d) = some (if neg then - (val d : Int) else val d) := by
    unfold toInt
    rw [e1, e2, underscores_none _ (fun hx => (hs _ hx).2 rfl), if_pos rfl, e5]
  unfold convert
  rw [if_pos e6, e7]

/-- **C81.** A value that is not a number is read as it is; an integer written as Python does is read as this integer. -/
theorem values_exact (v : List Char) (n : Int) : (isDecimal v = false → convert v = .text v) ∧ convert (str n) = .int n := by
  refine ⟨fun h => by unfold convert; rw [h]; rfl, ?_⟩
  obtain ⟨h1, h2, h3, _⟩ := digits_spec n.natAbs
  have := convert_digits (decide (n < 0)) (digits n.natAbs) h2 h1
  unfold str
  by_cases hn : n < 0
  · rw [if_pos hn]
    simp only [hn, decide_true, if_true, h3] at this
    have e : - (n.natAbs : Int) = n := by omega
    rw [e] at this
    exact this
  · rw [if_neg hn]
    simp only [hn, decide_false, h3] at this
    have e : (n.natAbs : Int) = n := by omega
    rw [← e] 
    simpa using this

/-- **C81.** The default values are only used for the parameters that have none. -/
theorem defaults_exact (k : List Char) : ∀ (ds cfg : List (List Char × Value)), (setDefaults cfg ds).lookup k = (cfg.lookup k).or (ds.lookup k)
  | [], cfg => by simp [setDefaults]
  | (a, b) :: ds, cfg => by
    show (setDefaults (if (cfg.lookup a).isSome then cfg else cfg ++ [(a, b)]) ds).lookup k = _
    rw [defaults_exact k ds]
    by_cases h : (cfg.lookup a).isSome = true
    · rw [if_pos h, List.lookup_cons]
      by_cases hk : k = a
      · subst hk
        obtain ⟨v, hv⟩ := Option.isSome_iff_exists.1 h
        rw [hv]; simp
      · have : (k == a) = false := by simpa using hk
        rw [this]
    · rw [if_neg h, List.lookup_append, List.lookup_cons, List.lookup_cons]
      by_cases hk : k = a
      · subst hk
        have : cfg.lookup k = none := by
          cases hc : cfg.lookup k with
          | none => rfl
          | some v => rw [hc] at h; exact absurd rfl h
        rw [this]; simp
      · have : (k == a) = false := by simpa using hk
        rw [this]
        simp

/-! ## Violations -/

/-- C81 (violated). A value between quotes is cut at its first `#`. -/
theorem hash_violated (conf : List (List Char × Value)) (k v c : List Char) (hk : Key k) (hv : Val v) (hw : NoEdge Char.isWhitespace ('"' :: v)) :
    loadLine conf (k ++ '=' :: '"' :: v ++ '#' :: c ++ ['"']) = dictSet k (convert v) conf := by
  have hn : '#' ∉ k ++ '=' :: '"' :: v := by
    simp only [List.mem_append, List.mem_cons, not_or]
    exact ⟨hk.plain.2.1, by decide, by decide, hv.plain.1⟩
  have e : k ++ '=' :: '"' :: v ++ '#' :: c ++ ['"'] = (k ++ '=' :: '"' :: v) ++ '#' :: (c ++ ['"']) := by simp
  unfold loadLine uncomment
  rw [e, cut_first '#' _ _ hn]
  dsimp only
  rw [cut_first '=' _ _ hk.plain.1]
  dsimp only
  have s1 : strip k = k := strip_id _ _ hk.edge
  have s2 : strip ('"' :: v) = '"' :: v := strip_id _ _ hw
  have s3 : stripQuotes ('"' :: v) = v := by
    have := stripBy_mid quote ['"'] v [] (by decide) (by simp) hv.edge
    rw [List.append_nil] at this
    exact this
  rw [s1, s2, s3]

/-- C81 (violated). A value that ends with a simple quote loses it. -/
theorem quote_violated (conf : List (List Char × Value)) (k v : List Char) (hk : Key k) (hv : Val v) :
    loadLine conf (line k (v ++ ['\''])) = dictSet k (convert v) conf := by
  have hnl : '#' ∉ line k (v ++ ['\'']) := by
    unfold line
    simp only [List.mem_append, List.mem_cons, not_or]
    exact ⟨⟨hk.plain.2.1, by decide, by decide, hv.plain.1, by decide, by simp⟩, by decide, by simp⟩
  unfold loadLine uncomment
  rw [(cut_none '#' _).2 hnl]
  dsimp only
  have e : line k (v ++ ['\'']) = k ++ '=' :: ('"' :: (v ++ ['\'']) ++ ['"']) := by simp [line]
  rw [e, cut_first '=' _ _ hk.plain.1]
  dsimp only
  have s1 : strip k = k := strip_id _ _ hk.edge
  have s2 : strip ('"' :: (v ++ ['\'']) ++ ['"']) = '"' :: (v ++ ['\'']) ++ ['"'] := strip_id _ _ (quoted_edge _)
  have s3 : stripQuotes ('"' :: (v ++ ['\'']) ++ ['"']) = v := by
    have := stripBy_mid quote ['"'] v ['\'', '"'] (by decide) (by decide) hv.edge
    have e : '"' :: (v ++ ['\'']) ++ ['"'] = ['"'] ++ v ++ ['\'', '"'] := by simp
    rw [e]
    exact this
  rw [s1, s2, s3]

/-- C81 (violated). A text of digits is read as a number: its zeros at the left are lost. -/
theorem zeros_violated (n : Nat) : convert ('0' :: digits n) = .int n := by
  obtain ⟨h1, h2, h3, _⟩ := digits_spec n
  have := convert_digits false ('0' :: digits n) (by rw [List.all_cons, h2]; rfl) (by simp)
  simp only [Bool.false_eq_true, if_false, List.nil_append] at this
  rw [this]
  have : val ('0' :: digits n) = val (digits n) := rfl
  rw [this, h3]

/-- C81 (violated). Some words and texts are read as numbers, and some as nothing at all. -/
theorem words_violated : convert (txt "inf") = .float (txt "inf") ∧ convert (txt "1e5") = .float (txt "1e5") ∧ convert (txt "12_34") = .int 1234 ∧
    convert (txt "sNaN") = .null ∧ convert (txt "12_") = .null := by decide +kernel

/-- C81 (violated). The default values given to the constructor are not used. -/
theorem constructor_violated (classDefaults d : List (List Char × Value)) (k : List Char) : (create classDefaults d).lookup k = classDefaults.lookup k := rfl

/-! ## Examples -/

-- The line of the file of the project (oar/tools/oar.conf.in:495): the last quote of the command is lost.
example : loadLine [] (txt "SLEEP_CMD=\"/usr/lib/oar/sentinelle.pl -f - -t 3 -p 'oardodo halt'\"") =
    [(txt "SLEEP_CMD", .text (txt "/usr/lib/oar/sentinelle.pl -f - -t 3 -p 'oardodo halt"))] := by decide +kernel
example : loadLine [] (txt "API_ACCESS_TOKEN_EXPIRE_MINUTES=\"524160\" # One year") = [(txt "API_ACCESS_TOKEN_EXPIRE_MINUTES", .int 524160)] := by decide +kernel
example : (load [(txt "A", .int 1), (txt "B", .int 2)] (txt "# comment\nA=\"x y\"\n\nC = 3\nA=\"z\"\n")) =
    [(txt "A", .text (txt "z")), (txt "B", .int 2), (txt "C", .int 3)] := by decide +kernel
example : Key (txt "SERVER_PORT") ∧ Val (txt "type='default':0") ∧ isDecimal (txt "type='default':0") = false := by
  refine ⟨⟨by decide, ?_, ?_⟩, ⟨by decide, ?_, ?_⟩, by decide +kernel⟩
  · intro c r h; rw [← (List.cons.inj h).1]; decide
  · intro c r h
    have : c = 'T' := by
      have := congrArg List.getLast? h
      simpa [txt] using this.symm
    rw [this]; decide
  · intro c r h; rw [← (List.cons.inj h).1]; decide
  · intro c r h
    have : c = '0' := by
      have := congrArg List.getLast? h
      simpa [txt] using this.symm
    rw [this]; decide

end Oar.Config
