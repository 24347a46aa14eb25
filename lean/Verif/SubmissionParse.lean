import Verif.Submission
import Verif.ToolsProps

/-!
# C40: the parser of the resource requests
-/

namespace Oar.Submission

open Oar.Tools

/-! ## Specification: how a request is written -/

/-- Texts separated by `c`. -/
def joinC (c : Char) : List (List Char) → List Char
  | [] => []
  | [a] => a
  | a :: l => a ++ c :: joinC c l

def renderCount : Count → List Char
  | .num t => t
  | .all => txt "ALL"
  | .best => txt "BEST"
  | .half => txt "HALF_BEST"

/-- `name=count`. -/
def renderLevel (x : List Char × Count) : List Char := x.1 ++ '=' :: renderCount x.2

/-- `{property}/name=count/name=count`; the first slash is optional (`lead`). -/
def renderGroup (lead : Bool) (g : Grp) : List Char :=
  (if g.prop = [] then [] else '{' :: (g.prop ++ ['}'])) ++
    joinC '/' ((if lead then [[]] else []) ++ g.res.map renderLevel)

/-- `group+group,walltime=h:m:s`. -/
def renderInst (lead : Bool) (i : Inst) : List Char :=
  joinC '+' (i.groups.map (renderGroup lead)) ++ (match i.walltime with
    | none => []
    | some t => ',' :: (txt "walltime=" ++ durationToSql t))

/-- Names: no separator, no space. -/
def CleanName (r : List Char) : Prop :=
  (∀ c ∈ r, c ≠ ',' ∧ c ≠ '+' ∧ c ≠ '/' ∧ c ≠ '=' ∧ c ≠ '{' ∧ c.isWhitespace = false) ∧ r ≠ txt "walltime"

def CleanCount : Count → Prop
  | .num t => (∀ c ∈ t, c ≠ ',' ∧ c ≠ '+' ∧ c ≠ '/' ∧ c ≠ '=') ∧ t ≠ txt "ALL" ∧ t ≠ txt "BEST" ∧ t ≠ txt "HALF_BEST"
  | _ => True

/-- A property has no comma, no plus and no closing brace; slashes and equal signs are allowed. -/
def CleanGroup (g : Grp) : Prop :=
  (∀ c ∈ g.prop, c ≠ ',' ∧ c ≠ '+' ∧ c ≠ '}') ∧ g.res ≠ [] ∧ ∀ x ∈ g.res, CleanName x.1 ∧ CleanCount x.2

def CleanInst (i : Inst) : Prop := i.groups ≠ [] ∧ ∀ g ∈ i.groups, CleanGroup g

/-- The number of levels of a group asked with `ALL`, `BEST` or `HALF_BEST`. -/
def specials (g : Grp) : Nat := (g.res.filter (fun x => x.2.special)).length

/-- `nodes` stands for the property configured for the nodes. -/
def substNodes (nodes : List Char) (i : Inst) : Inst :=
  { i with groups := i.groups.map (fun g => { g with res := g.res.map (fun x => (if x.1 = txt "nodes" then nodes else x.1, x.2)) }) }

/-! ## Proof -/

theorem split_join (c : Char) (l : List (List Char)) (hne : l ≠ []) (h : ∀ a ∈ l, ∀ x ∈ a, x ≠ c) : split c (joinC c l) = l := by
  induction l with
  | nil => exact absurd rfl hne
  | cons a l ih =>
    cases l with
    | nil => exact split_nil_sep _ _ (h a (by simp))
    | cons b l =>
      show split c (a ++ c :: joinC c (b :: l)) = _
      rw [split_cons_sep _ _ _ (h a (by simp)), ih (by simp) (fun x hx => h x (List.mem_cons_of_mem _ hx))]

theorem mem_joinC (c : Char) (l : List (List Char)) (x : Char) (hx : x ∈ joinC c l) : x = c ∨ ∃ a ∈ l, x ∈ a := by
  induction l with
  | nil => cases hx
  | cons a l ih =>
    cases l with
    | nil => exact Or.inr ⟨a, by simp, hx⟩
    | cons b l =>
      have hx : x ∈ a ++ c :: joinC c (b :: l) := hx
      rcases List.mem_append.1 hx with hx | hx
      · exact Or.inr ⟨a, by simp, hx⟩
      · rcases List.mem_cons.1 hx with rfl | hx
        · exact Or.inl rfl
        · rcases ih hx with h | ⟨y, hy, h⟩
          · exact Or.inl h
          · exact Or.inr ⟨y, List.mem_cons_of_mem _ hy, h⟩

theorem digits_isDigit (n : Nat) : ∀ c ∈ digits n, c.isDigit = true := by
  have := (digits_spec n).2.1
  simpa using this

theorem str_chars (n : Int) : ∀ c ∈ str n, c.isDigit = true ∨ c = '-' := by
  intro c hc
  unfold str at hc
  split at hc
  · rcases List.mem_cons.1 hc with rfl | hc
    · exact Or.inr rfl
    · exact Or.inl (digits_isDigit _ c hc)
  · exact Or.inl (digits_isDigit _ c hc)

theorem sql_chars (t : Int) : ∀ c ∈ durationToSql t, c ≠ ',' ∧ c ≠ '=' := by
  have key : ∀ c : Char, (c.isDigit = true ∨ c = '-') ∨ c = ':' → c ≠ ',' ∧ c ≠ '=' := by
    intro c h
    constructor
    · rintro rfl
      revert h; decide
    · rintro rfl
      revert h; decide
  intro c hc
  apply key
  unfold durationToSql hmsToSql at hc
  rcases List.mem_append.1 hc with h | h
  · exact Or.inl (str_chars _ c h)
  · rcases List.mem_cons.1 h with h | h
    · exact Or.inr h
    · rcases List.mem_append.1 h with h | h
      · exact Or.inl (str_chars _ c h)
      · rcases List.mem_cons.1 h with h | h
        · exact Or.inr h
        · exact Or.inl (str_chars _ c h)

theorem walltime_no_comma : ∀ c ∈ txt "walltime=", c ≠ ',' := by decide

theorem hms_sql (t : Int) : hmsStrToDuration (durationToSql t) = some t := by
  unfold durationToSql hmsToSql
  rw [(hms_parsed _ _ _).2.2]
  have := (duration_hms t).2.2.2.2
  congr 1
  omega

theorem count_render (c : Count) (h : CleanCount c) : count (renderCount c) = c := by
  cases c with
  | num t =>
    obtain ⟨_, h1, h2, h3⟩ := h
    show count t = _
    unfold count
    rw [if_neg h1, if_neg h2, if_neg h3]
  | all => rfl
  | best => rfl
  | half => rfl

theorem renderCount_chars (c : Count) (h : CleanCount c) : ∀ x ∈ renderCount c, x ≠ ',' ∧ x ≠ '+' ∧ x ≠ '/' ∧ x ≠ '=' := by
  cases c with
  | num t => exact h.1
  | all => decide
  | best => decide
  | half => decide

theorem renderLevel_chars (x : List Char × Count) (h1 : CleanName x.1) (h2 : CleanCount x.2) :
    ∀ c ∈ renderLevel x, c ≠ ',' ∧ c ≠ '+' ∧ c ≠ '/' := by
  intro c hc
  rcases List.mem_append.1 hc with h | h
  · have := h1.1 c h
    exact ⟨this.1, this.2.1, this.2.2.1⟩
  · rcases List.mem_cons.1 h with rfl | h
    · decide
    · have := renderCount_chars x.2 h2 c h
      exact ⟨this.1, this.2.1, this.2.2.1⟩

theorem lstrip_level (x : List Char × Count) (h : CleanName x.1) : lstrip (renderLevel x) = renderLevel x := by
  obtain ⟨r, v⟩ := x
  unfold lstrip renderLevel
  cases r with
  | nil => rfl
  | cons c r =>
    have := (h.1 c (by simp)).2.2.2.2.2
    simp [this]

theorem split_level (x : List Char × Count) (h1 : CleanName x.1) (h2 : CleanCount x.2) :
    split '=' (renderLevel x) = [x.1, renderCount x.2] := by
  unfold renderLevel
  rw [split_cons_sep _ _ _ (fun c hc => (h1.1 c hc).2.2.2.1), split_nil_sep _ _ (fun c hc => (renderCount_chars x.2 h2 c hc).2.2.2)]

/-- The levels, after `n` special values (at most one). -/
theorem levels_render (nodes : List Char) (res : List (List Char × Count)) (h : ∀ x ∈ res, CleanName x.1 ∧ CleanCount x.2)
    (n : Nat) (hn : n ≤ 1) (acc : List (List Char × Count)) :
    levels nodes (res.map renderLevel) n acc =
      if 2 ≤ n + (res.filter (fun x => x.2.special)).length then .error 25
      else .ok (acc ++ res.map (fun x => (if x.1 = txt "nodes" then nodes else x.1, x.2))) := by
  induction res generalizing n acc with
  | nil =>
    simp only [List.map_nil, levels, List.filter_nil, List.length_nil, List.append_nil]
    rw [if_neg (by omega)]
  | cons x res ih =>
    obtain ⟨h1, h2⟩ := h x (by simp)
    rw [List.map_cons, levels, lstrip_level x h1]
    rw [if_neg (by unfold renderLevel; simp), split_level x h1 h2]
    dsimp only
    rw [count_render x.2 h2]
    by_cases hs : x.2.special = true
    · rw [if_pos hs, List.filter_cons_of_pos (p := fun x : List Char × Count => x.2.special) hs, List.length_cons]
      by_cases h0 : 1 < n + 1
      · rw [if_pos h0, if_pos (by omega)]
      · rw [if_neg h0, ih (fun y hy => h y (List.mem_cons_of_mem _ hy)) (n + 1) (by omega)]
        simp only [List.map_cons, List.append_assoc, List.singleton_append]
        congr 1
        simp only [eq_iff_iff]
        omega
    · rw [if_neg hs, List.filter_cons_of_neg (p := fun x : List Char × Count => x.2.special) hs, if_neg (by omega), ih (fun y hy => h y (List.mem_cons_of_mem _ hy)) n hn]
      simp only [List.map_cons, List.append_assoc, List.singleton_append]

theorem braces_prop (p rest : List Char) (hp : p ≠ []) (h : ∀ c ∈ p, c ≠ '}') : braces ('{' :: (p ++ '}' :: rest)) = some (p, rest) := by
  cases p with
  | nil => exact absurd rfl hp
  | cons c p =>
    show (if '}' ∈ p ++ '}' :: rest then some (c :: (p ++ '}' :: rest).takeWhile (fun x => decide (x ≠ '}')),
      ((p ++ '}' :: rest).dropWhile (fun x => decide (x ≠ '}'))).drop 1) else none) = _
    rw [if_pos (by simp)]
    have h' : ∀ x ∈ p, decide (x ≠ '}') = true := by
      intro x hx
      simpa using h x (by simp [hx])
    rw [List.takeWhile_append_of_pos h', List.dropWhile_append_of_pos h']
    simp

/-- The text of the levels of a group. -/
def levelsText (lead : Bool) (g : Grp) : List Char := joinC '/' ((if lead then [[]] else []) ++ g.res.map renderLevel)

theorem split_levelsText (lead : Bool) (g : Grp) (h : CleanGroup g) :
    split '/' (levelsText lead g) = (if lead then [[]] else []) ++ g.res.map renderLevel := by
  obtain ⟨_, h2, h3⟩ := h
  unfold levelsText
  apply split_join
  · cases lead with
    | true => simp
    | false => simpa using h2
  · intro a ha x hx
    rcases List.mem_append.1 ha with ha | ha
    · cases lead with
      | true => simp at ha; subst ha; cases hx
      | false => cases ha
    · obtain ⟨y, hy, rfl⟩ := List.mem_map.1 ha
      exact (renderLevel_chars y (h3 y hy).1 (h3 y hy).2 x hx).2.2

/-- The first character of the levels is not an opening brace. -/
theorem braces_levelsText (lead : Bool) (g : Grp) (h : CleanGroup g) : braces (levelsText lead g) = none := by
  obtain ⟨_, h2, h3⟩ := h
  have hfirst : ∀ c l, levelsText lead g = c :: l → c ≠ '{' := by
    intro c l he
    unfold levelsText at he
    cases hr : g.res with
    | nil => exact absurd hr h2
    | cons x r =>
      rw [hr, List.map_cons] at he
      cases lead with
      | true =>
        have he : ([] : List Char) ++ '/' :: joinC '/' (renderLevel x :: r.map renderLevel) = c :: l := he
        cases he
        decide
      | false =>
        have hc := (h3 x (by simp [hr])).1
        simp only [Bool.false_eq_true, if_false, List.nil_append] at he
        have hx : ∃ m, joinC '/' (renderLevel x :: r.map renderLevel) = renderLevel x ++ m := by
          cases r with
          | nil => exact ⟨[], (List.append_nil _).symm⟩
          | cons y r => exact ⟨_, rfl⟩
        obtain ⟨m, hm⟩ := hx
        rw [hm] at he
        unfold renderLevel at he
        cases hx1 : x.1 with
        | nil =>
          rw [hx1] at he
          simp at he
          rw [← he.1]; decide
        | cons d r1 =>
          rw [hx1] at he
          simp at he
          rw [← he.1]
          exact (hc.1 d (by simp [hx1])).2.2.2.2.1
  unfold braces
  split
  · rename_i c l he
    exact absurd rfl (hfirst '{' _ he)
  · rfl

theorem group_render (nodes : List Char) (lead : Bool) (g : Grp) (h : CleanGroup g) :
    group nodes (renderGroup lead g) = if 2 ≤ specials g then .error 25
      else .ok ⟨g.prop, g.res.map (fun x => (if x.1 = txt "nodes" then nodes else x.1, x.2))⟩ := by
  have hpr : (braces (renderGroup lead g)).getD ([], renderGroup lead g) = (g.prop, levelsText lead g) := by
    unfold renderGroup
    by_cases hp : g.prop = []
    · rw [if_pos hp, List.nil_append]
      show (braces (levelsText lead g)).getD ([], levelsText lead g) = _
      rw [braces_levelsText lead g h, hp]; rfl
    · rw [if_neg hp]
      have : ('{' :: (g.prop ++ ['}'])) ++ levelsText lead g = '{' :: (g.prop ++ '}' :: levelsText lead g) := by simp
      show (braces (('{' :: (g.prop ++ ['}'])) ++ levelsText lead g)).getD _ = _
      rw [this, braces_prop _ _ hp (fun c hc => (h.1 c hc).2.2)]
      rfl
  unfold group
  rw [hpr]
  dsimp only
  rw [split_levelsText lead g h]
  have hskip : levels nodes ((if lead then [[]] else []) ++ g.res.map renderLevel) 0 [] = levels nodes (g.res.map renderLevel) 0 [] := by
    cases lead with
    | true => rfl
    | false => rfl
  rw [hskip, levels_render nodes g.res h.2.2 0 (by omega)]
  unfold specials
  simp only [Nat.zero_add, List.nil_append]
  by_cases hs : 2 ≤ (g.res.filter (fun x => x.2.special)).length
  · rw [if_pos hs, if_pos hs]
  · rw [if_neg hs, if_neg hs]

theorem groups_render (nodes : List Char) (lead : Bool) (gs : List Grp) (h : ∀ g ∈ gs, CleanGroup g) :
    groups nodes (gs.map (renderGroup lead)) = if ∃ g ∈ gs, 2 ≤ specials g then .error 25
      else .ok (gs.map (fun g => { g with res := g.res.map (fun x => (if x.1 = txt "nodes" then nodes else x.1, x.2)) })) := by
  induction gs with
  | nil => simp [groups]
  | cons g gs ih =>
    rw [List.map_cons, groups, group_render nodes lead g (h g (by simp)), ih (fun x hx => h x (List.mem_cons_of_mem _ hx))]
    by_cases hg : 2 ≤ specials g
    · rw [if_pos hg]
      exact (if_pos ⟨g, by simp, hg⟩).symm
    · rw [if_neg hg]
      by_cases hgs : ∃ x ∈ gs, 2 ≤ specials x
      · obtain ⟨x, hx, hx2⟩ := hgs
        rw [if_pos ⟨x, hx, hx2⟩]
        exact (if_pos ⟨x, List.mem_cons_of_mem _ hx, hx2⟩).symm
      · rw [if_neg hgs, if_neg]
        · rfl
        · rintro ⟨x, hx, hx2⟩
          rcases List.mem_cons.1 hx with rfl | hx
          · exact hg hx2
          · exact hgs ⟨x, hx, hx2⟩

theorem renderGroup_chars (lead : Bool) (g : Grp) (h : CleanGroup g) : ∀ c ∈ renderGroup lead g, c ≠ ',' ∧ c ≠ '+' := by
  have hl : ∀ c ∈ levelsText lead g, c ≠ ',' ∧ c ≠ '+' := by
    intro c hc
    rcases mem_joinC _ _ _ hc with rfl | ⟨a, ha, hc⟩
    · decide
    · rcases List.mem_append.1 ha with ha | ha
      · cases lead with
        | true => simp at ha; subst ha; cases hc
        | false => cases ha
      · obtain ⟨y, hy, rfl⟩ := List.mem_map.1 ha
        have := renderLevel_chars y (h.2.2 y hy).1 (h.2.2 y hy).2 c hc
        exact ⟨this.1, this.2.1⟩
  intro c hc
  unfold renderGroup at hc
  rcases List.mem_append.1 hc with hc | hc
  · split at hc
    · cases hc
    · rcases List.mem_cons.1 hc with rfl | hc
      · decide
      · rcases List.mem_append.1 hc with hc | hc
        · exact ⟨(h.1 c hc).1, (h.1 c hc).2.1⟩
        · have := List.mem_singleton.1 hc
          subst this; decide
  · exact hl c hc

/-- What a text that starts with `walltime=` looks like before its first equal sign. -/
theorem starts_takeWhile (l : List Char) (h : startsWalltime l = true) : l.takeWhile (fun c => decide (c ≠ '=')) = txt "walltime" := by
  unfold startsWalltime at h
  obtain ⟨m, rfl⟩ := List.isPrefixOf_iff_prefix.1 h
  have : txt "walltime=" ++ m = txt "walltime" ++ ('=' :: m) := by
    show (txt "walltime" ++ ['=']) ++ m = _
    simp
  rw [this, List.takeWhile_append_of_pos (by decide)]
  simp

theorem renderGroup_not_walltime (lead : Bool) (g : Grp) (h : CleanGroup g) (m : List Char) :
    startsWalltime (renderGroup lead g ++ m) = false := by
  cases hs : startsWalltime (renderGroup lead g ++ m) with
  | false => rfl
  | true =>
    exfalso
    have ht := starts_takeWhile _ hs
    unfold renderGroup at ht
    by_cases hp : g.prop = []
    · rw [if_pos hp, List.nil_append] at ht
      obtain ⟨_, h2, h3⟩ := h
      cases hr : g.res with
      | nil => exact h2 hr
      | cons x r =>
        rw [hr, List.map_cons] at ht
        cases lead with
        | true =>
          have ht : List.takeWhile (fun c => decide (c ≠ '=')) ((([] : List Char) ++ '/' :: joinC '/' (renderLevel x :: r.map renderLevel)) ++ m) = txt "walltime" := ht
          simp only [List.nil_append, List.cons_append, List.takeWhile_cons] at ht
          rw [if_pos (by decide)] at ht
          have := congrArg (fun l => l.head?) ht
          revert this
          simp [txt]
        | false =>
          have hc := (h3 x (by simp [hr])).1
          simp only [Bool.false_eq_true, if_false, List.nil_append] at ht
          have hx : ∃ q, joinC '/' (renderLevel x :: r.map renderLevel) = renderLevel x ++ q := by
            cases r with
            | nil => exact ⟨[], (List.append_nil _).symm⟩
            | cons y r => exact ⟨_, rfl⟩
          obtain ⟨q, hq⟩ := hx
          rw [hq] at ht
          unfold renderLevel at ht
          simp only [List.append_assoc] at ht
          rw [List.takeWhile_append_of_pos (fun c hcm => by simpa using (hc.1 c hcm).2.2.2.1)] at ht
          simp at ht
          exact hc.2 ht
    · rw [if_neg hp] at ht
      simp only [List.cons_append, List.takeWhile_cons] at ht
      rw [if_pos (by decide)] at ht
      have := congrArg (fun l => l.head?) ht
      revert this
      simp [txt]

theorem joinC_head (c : Char) (a : List Char) (l : List (List Char)) : ∃ m, joinC c (a :: l) = a ++ m := by
  cases l with
  | nil => exact ⟨[], (List.append_nil _).symm⟩
  | cons b l => exact ⟨_, rfl⟩

theorem inst_render (dflt nodes : List Char) (lead : Bool) (i : Inst) (h : CleanInst i) :
    inst dflt nodes (renderInst lead i) = if ∃ g ∈ i.groups, 2 ≤ specials g then .error 25 else .ok (substNodes nodes i) := by
  obtain ⟨hne, hg⟩ := h
  have hcomma : ∀ c ∈ joinC '+' (i.groups.map (renderGroup lead)), c ≠ ',' := by
    intro c hc
    rcases mem_joinC _ _ _ hc with rfl | ⟨a, ha, hc⟩
    · decide
    · obtain ⟨g, hg', rfl⟩ := List.mem_map.1 ha
      exact (renderGroup_chars lead g (hg g hg') c hc).1
  have hsplit : split '+' (joinC '+' (i.groups.map (renderGroup lead))) = i.groups.map (renderGroup lead) := by
    apply split_join
    · simpa using hne
    · intro a ha x hx
      obtain ⟨g, hg', rfl⟩ := List.mem_map.1 ha
      exact (renderGroup_chars lead g (hg g hg') x hx).2
  have hstart : startsWalltime (joinC '+' (i.groups.map (renderGroup lead))) = false := by
    cases hgs : i.groups with
    | nil => exact absurd hgs hne
    | cons g gs =>
      obtain ⟨m, hm⟩ := joinC_head '+' (renderGroup lead g) (gs.map (renderGroup lead))
      rw [List.map_cons, hm]
      exact renderGroup_not_walltime lead g (hg g (by simp [hgs])) m
  have hfin : ∀ w, (match groups nodes (split '+' (joinC '+' (i.groups.map (renderGroup lead)))) with
      | .ok gs => (.ok ⟨gs, w⟩ : Parsed Inst)
      | .error c => .error c
      | .raised => .raised) = if ∃ g ∈ i.groups, 2 ≤ specials g then .error 25
        else .ok ⟨(substNodes nodes i).groups, w⟩ := by
    intro w
    rw [hsplit, groups_render nodes lead i.groups hg]
    by_cases hs : ∃ g ∈ i.groups, 2 ≤ specials g
    · rw [if_pos hs, if_pos hs]
    · rw [if_neg hs, if_neg hs]; rfl
  unfold inst
  dsimp only
  cases hw : i.walltime with
  | none =>
    have hr : renderInst lead i = joinC '+' (i.groups.map (renderGroup lead)) := by
      unfold renderInst; rw [hw]; simp
    rw [hr, split_nil_sep _ _ hcomma]
    rw [if_neg (by rw [List.headD_cons, hstart]; decide)]
    have := hfin none
    show (match groups nodes (split '+' (joinC '+' (i.groups.map (renderGroup lead)))) with
      | .ok gs => (.ok ⟨gs, none⟩ : Parsed Inst)
      | .error c => .error c
      | .raised => .raised) = _
    rw [this]
    unfold substNodes
    rw [hw]
  | some t =>
    have hr : renderInst lead i = joinC '+' (i.groups.map (renderGroup lead)) ++ ',' :: (txt "walltime=" ++ durationToSql t) := by
      unfold renderInst; rw [hw]
    have hw1 : split ',' (txt "walltime=" ++ durationToSql t) = [txt "walltime=" ++ durationToSql t] := by
      apply split_nil_sep
      intro c hc
      rcases List.mem_append.1 hc with hc | hc
      · exact walltime_no_comma c hc
      · exact (sql_chars t c hc).1
    have hw2 : split '=' (txt "walltime=" ++ durationToSql t) = [txt "walltime", durationToSql t] := by
      have : txt "walltime=" ++ durationToSql t = txt "walltime" ++ '=' :: durationToSql t := by
        show (txt "walltime" ++ ['=']) ++ _ = _
        simp
      rw [this, split_cons_sep _ _ _ (by decide), split_nil_sep _ _ (fun c hc => (sql_chars t c hc).2)]
    rw [hr, split_cons_sep _ _ _ hcomma, hw1]
    rw [if_neg (by rw [List.headD_cons, hstart]; decide)]
    have hwt : walltime [joinC '+' (i.groups.map (renderGroup lead)), txt "walltime=" ++ durationToSql t] = some (some t) := by
      unfold walltime
      dsimp only
      rw [hw2]
      dsimp only
      rw [hms_sql]; rfl
    rw [hwt]
    have := hfin (some t)
    show (match groups nodes (split '+' (joinC '+' (i.groups.map (renderGroup lead)))) with
      | .ok gs => (.ok ⟨gs, some t⟩ : Parsed Inst)
      | .error c => .error c
      | .raised => .raised) = _
    rw [this]
    unfold substNodes
    rw [hw]

/-- C40. Every request written in the syntax of oarsub, with any number of alternatives, groups and levels, is read back
with its properties, levels, counts and walltimes (`nodes` being replaced by the configured property), unless a group
uses two special counts: then it is rejected with the code 25. -/
theorem parse_render (dflt nodes : List Char) (lead : Bool) (reqs : List Inst) (hne : reqs ≠ []) (h : ∀ i ∈ reqs, CleanInst i) :
    parse dflt nodes (reqs.map (renderInst lead)) =
      if ∃ i ∈ reqs, ∃ g ∈ i.groups, 2 ≤ specials g then .error 25 else .ok (reqs.map (substNodes nodes)) := by
  unfold parse
  rw [if_neg (by simpa using hne)]
  clear hne
  induction reqs with
  | nil => simp [insts]
  | cons i reqs ih =>
    rw [List.map_cons, insts, inst_render dflt nodes lead i (h i (by simp)), ih (fun x hx => h x (List.mem_cons_of_mem _ hx))]
    by_cases hg : ∃ g ∈ i.groups, 2 ≤ specials g
    · rw [if_pos hg]
      exact (if_pos ⟨i, by simp, hg⟩).symm
    · rw [if_neg hg]
      by_cases hgs : ∃ x ∈ reqs, ∃ g ∈ x.groups, 2 ≤ specials g
      · obtain ⟨x, hx, hx2⟩ := hgs
        rw [if_pos ⟨x, hx, hx2⟩]
        exact (if_pos ⟨x, List.mem_cons_of_mem _ hx, hx2⟩).symm
      · rw [if_neg hgs, if_neg]
        · rfl
        · rintro ⟨x, hx, hx2⟩
          rcases List.mem_cons.1 hx with rfl | hx
          · exact hg hx2
          · exact hgs ⟨x, hx, hx2⟩

/-- Without a request, the default one is used; a walltime alone is added to the default one. -/
theorem parse_default (dflt nodes : List Char) : parse dflt nodes [] = parse dflt nodes [dflt] := by
  unfold parse
  by_cases h : ([] : List (List Char)) = []
  · rw [if_pos rfl, if_neg (by simp)]
  · exact absurd rfl h

theorem parse_walltime_only (nodes : List Char) (lead : Bool) (i : Inst) (h : CleanInst i) (hw : i.walltime = none) (t : Int) :
    parse (renderInst lead i) nodes [txt "walltime=" ++ durationToSql t] =
      if ∃ g ∈ i.groups, 2 ≤ specials g then .error 25 else .ok [substNodes nodes { i with walltime := some t }] := by
  have h1 := inst_render (renderInst lead i) nodes lead { i with walltime := some t } h
  have hr : renderInst lead i = joinC '+' (i.groups.map (renderGroup lead)) := by
    unfold renderInst; rw [hw]; simp
  have hw1 : split ',' (txt "walltime=" ++ durationToSql t) = [txt "walltime=" ++ durationToSql t] := by
    apply split_nil_sep
    intro c hc
    rcases List.mem_append.1 hc with hc | hc
    · exact walltime_no_comma c hc
    · exact (sql_chars t c hc).1
  have hcomma : ∀ c ∈ joinC '+' (i.groups.map (renderGroup lead)), c ≠ ',' := by
    intro c hc
    rcases mem_joinC _ _ _ hc with rfl | ⟨a, ha, hc⟩
    · decide
    · obtain ⟨g, hg', rfl⟩ := List.mem_map.1 ha
      exact (renderGroup_chars lead g (h.2 g hg') c hc).1
  have hst : startsWalltime (joinC '+' (i.groups.map (renderGroup lead))) = false := by
    cases hgs : i.groups with
    | nil => exact absurd hgs h.1
    | cons g gs =>
      obtain ⟨m, hm⟩ := joinC_head '+' (renderGroup lead g) (gs.map (renderGroup lead))
      rw [List.map_cons, hm]
      exact renderGroup_not_walltime lead g (h.2 g (by simp [hgs])) m
  have hsw : startsWalltime (txt "walltime=" ++ durationToSql t) = true := by
    unfold startsWalltime
    exact List.isPrefixOf_iff_prefix.2 (List.prefix_append _ _)
  have heq : inst (renderInst lead i) nodes (txt "walltime=" ++ durationToSql t) = inst (renderInst lead i) nodes (renderInst lead { i with walltime := some t }) := by
    have hr2 : renderInst lead { i with walltime := some t } = joinC '+' (i.groups.map (renderGroup lead)) ++ ',' :: (txt "walltime=" ++ durationToSql t) := rfl
    unfold inst
    dsimp only
    rw [hr2, split_cons_sep _ _ _ hcomma, hw1]
    rw [if_pos (by rw [List.headD_cons]; exact hsw), if_neg (by rw [List.headD_cons, hst]; decide), hr]
    simp only [List.headD_cons]
  unfold parse
  rw [if_neg (by simp)]
  unfold insts
  rw [heq, h1]
  dsimp only
  by_cases hg : ∃ g ∈ i.groups, 2 ≤ specials g
  · rw [if_pos hg, if_pos hg]
  · rw [if_neg hg, if_neg hg]; rfl

/-- A concrete request: two alternatives, properties, several levels, a special count and walltimes. -/
def exReq : List Inst := [⟨[⟨txt "a='x/y'", [(txt "nodes", .num (txt "2")), (txt "core", .all)]⟩, ⟨[], [(txt "lic", .num (txt "1"))]⟩], some 5400⟩,
  ⟨[⟨[], [(txt "nodes", .best)]⟩], none⟩]

instance : ∀ c, Decidable (CleanCount c)
  | .num t => by unfold CleanCount; infer_instance
  | .all => isTrue trivial
  | .best => isTrue trivial
  | .half => isTrue trivial

instance (r : List Char) : Decidable (CleanName r) := by unfold CleanName; infer_instance
instance (g : Grp) : Decidable (CleanGroup g) := by unfold CleanGroup; infer_instance
instance (i : Inst) : Decidable (CleanInst i) := by unfold CleanInst; infer_instance

example : (∀ i ∈ exReq, CleanInst i) ∧
    exReq.map (renderInst true) = [txt "{a='x/y'}/nodes=2/core=ALL+/lic=1,walltime=1:30:0", txt "/nodes=BEST"] := by
  decide

/-- C40, violated outside of the clean texts: a property with a comma (here `a='x' or b in (1,2)`) is cut and read as a
resource named `{a`, and what follows the comma becomes a walltime. -/
theorem parse_comma_violated : (match parse (txt "/id=1") (txt "network_address") [txt "{a='x' or b in (1,2)}/nodes=1"] with
    | .ok l => l
    | _ => []) = [⟨[⟨[], [(txt "{a", .num (txt "'x' or b in (1"))]⟩], some 3600⟩] := by decide

/-- C40, violated: more than one comma drops the walltime silently, and any name is read as the walltime. -/
theorem parse_walltime_violated : (match parse (txt "/id=1") (txt "network_address") [txt "/core=1,walltime=2:0:0,foo"] with
      | .ok l => l.map (·.walltime)
      | _ => []) = [none] ∧
    (match parse (txt "/id=1") (txt "network_address") [txt "/core=1,foo=2"] with
      | .ok l => l.map (·.walltime)
      | _ => []) = [some 7200] := by decide

/-- C40, violated: a level without a count makes the submission raise instead of being rejected. -/
theorem parse_raises_violated : (match parse (txt "/id=1") (txt "network_address") [txt "/core"] with
    | .raised => true
    | _ => false) = true := by decide

end Oar.Submission
