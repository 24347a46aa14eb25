import Verif.ApiProxySpec
import Verif.ToolsProps

/-!
# The web proxy of the jobs (C89)
-/

namespace Oar.ApiProxy

open Oar.Tools Oar.ApiProxy.Spec

/-! ## Names -/

theorem hex_table : ∀ x < 16, alnum (hex x) = true ∧ hexVal (hex x) = some x := by decide +kernel

theorem unescape_other {a : Char} (h : a ≠ '_') : ∀ r : List Char, unescape (a :: r) = (unescape r).map (fun t => a :: t)
  | [] => rfl
  | [_] => rfl
  | _ :: _ :: _ => by
    conv => lhs; unfold unescape
    rw [if_neg (fun hh => h hh.1)]

theorem unescape_hex {x y : Nat} (hx : x < 16) (hy : y < 16) (r : List Char) :
    unescape ('_' :: hex x :: hex y :: r) = (unescape r).map (fun t => Char.ofNat (16 * x + y) :: t) := by
  conv => lhs; unfold unescape
  rw [if_pos ⟨rfl, (hex_table x hx).1, (hex_table y hy).1⟩, (hex_table x hx).2, (hex_table y hy).2]

theorem alnum_not_underscore {c : Char} (h : alnum c = true) : c ≠ '_' := by
  rintro rfl; revert h; decide +kernel

/-- The escape of a path can be undone. -/
theorem unescape_escape : ∀ (s : List Char), (∀ c ∈ s, 16 ≤ c.toNat ∧ c.toNat < 128) → unescape (escape s) = some s
  | [], _ => rfl
  | c :: s, h => by
    have ih := unescape_escape s (fun x hx => h x (List.mem_cons_of_mem _ hx))
    have hc := h c List.mem_cons_self
    have e : escape (c :: s) = (if alnum c then [c] else escapeChar c) ++ escape s := rfl
    rw [e]
    by_cases ha : alnum c = true
    · rw [if_pos ha]
      show unescape (c :: escape s) = _
      rw [unescape_other (alnum_not_underscore ha), ih]; rfl
    · rw [if_neg ha]
      unfold escapeChar
      rw [if_neg (by omega)]
      show unescape ('_' :: hex _ :: hex _ :: escape s) = _
      rw [unescape_hex (by omega) (by omega), ih]
      have : 16 * (c.toNat / 16) + c.toNat % 16 = c.toNat := Nat.div_add_mod _ _
      rw [this, Option.map_some, Char.ofNat_toNat]

theorem slash_escape (t : List Char) : escape ('/' :: t) = '_' :: '2' :: 'F' :: escape t := by
  show (if alnum '/' then ['/'] else escapeChar '/') ++ escape t = _
  rw [show (if alnum '/' then ['/'] else escapeChar '/') = ['_', '2', 'F'] by decide +kernel]; rfl

theorem unescape_key (t : List Char) (h : ∀ c ∈ t, 16 ≤ c.toNat ∧ c.toNat < 128) :
    unescape (frontendOf ('/' :: t)) = some (txt "frontend_" ++ '/' :: t) := by
  have e := unescape_escape ('/' :: t) (by
    intro c hc
    rcases List.mem_cons.1 hc with rfl | hc
    · decide
    · exact h c hc)
  have n : unescape ('_' :: escape ('/' :: t)) = (unescape (escape ('/' :: t))).map (fun u => '_' :: u) := by
    rw [slash_escape]
    conv => lhs; unfold unescape
    rw [if_neg]
    rintro ⟨_, hb, _⟩
    revert hb; decide +kernel
  show unescape ('f' :: 'r' :: 'o' :: 'n' :: 't' :: 'e' :: 'n' :: 'd' :: '_' :: escape ('/' :: t)) = _
  rw [unescape_other (by decide), unescape_other (by decide), unescape_other (by decide), unescape_other (by decide), unescape_other (by decide),
    unescape_other (by decide), unescape_other (by decide), unescape_other (by decide), n, e]
  rfl

theorem digits_ascii (n : Nat) : ∀ c ∈ digits n, (16 ≤ c.toNat ∧ c.toNat < 128) ∧ c ≠ '/' ∧ c.isDigit = true := by
  intro c hc
  have := List.all_eq_true.1 (digits_spec n).2.1 c hc
  have h2 := this
  simp only [Char.isDigit, Bool.and_eq_true, decide_eq_true_eq] at h2
  have h3 : 48 ≤ c.toNat ∧ c.toNat ≤ 57 := ⟨h2.1, h2.2⟩
  refine ⟨by omega, ?_, this⟩
  rintro rfl
  revert h3; decide

theorem digits_inj {m n : Nat} (h : digits m = digits n) : m = n := by
  have := (digits_spec m).2.2.1
  rw [h, (digits_spec n).2.2.1] at this
  exact this.symm

theorem prefix_ascii {base : List Char} (hb : GoodBase base) (id : Nat) : ∀ c ∈ prefixOf base id, 16 ≤ c.toNat ∧ c.toNat < 128 := by
  intro c hc
  rcases List.mem_append.1 hc with hc | hc
  · exact hb.2 c hc
  · rcases List.mem_cons.1 hc with rfl | hc
    · decide
    · exact (digits_ascii id c hc).1

theorem prefix_inj {base : List Char} {i j : Nat} (h : prefixOf base i = prefixOf base j) : i = j := by
  have := List.append_cancel_left h
  exact digits_inj (List.cons_inj_right _ |>.1 this)

theorem escape_inj {a b : List Char} (ha : ∀ c ∈ a, 16 ≤ c.toNat ∧ c.toNat < 128) (hb : ∀ c ∈ b, 16 ≤ c.toNat ∧ c.toNat < 128)
    (h : escape a = escape b) : a = b := by
  have h1 := unescape_escape a ha
  rw [h, unescape_escape b hb] at h1
  exact (Option.some.inj h1).symm

/-- Two jobs have different rules. -/
theorem frontend_inj {base : List Char} (hb : GoodBase base) {i j : Nat}
    (h : frontendOf (prefixOf base i) = frontendOf (prefixOf base j)) : i = j :=
  prefix_inj (escape_inj (prefix_ascii hb i) (prefix_ascii hb j) (List.append_cancel_left h))

theorem backend_inj {base : List Char} (hb : GoodBase base) {i j : Nat}
    (h : backendOf (prefixOf base i) = backendOf (prefixOf base j)) : i = j :=
  prefix_inj (escape_inj (prefix_ascii hb i) (prefix_ascii hb j) (List.append_cancel_left h))

theorem first_slash : ∀ (a : List Char), (∀ x ∈ a, x ≠ '/') ∨ ∃ u v, a = u ++ '/' :: v ∧ ∀ x ∈ u, x ≠ '/'
  | [] => Or.inl (by simp)
  | x :: a => by
    by_cases hx : x = '/'
    · exact Or.inr ⟨[], a, by rw [hx]; rfl, by simp⟩
    · rcases first_slash a with h | ⟨u, v, e, hu⟩
      · refine Or.inl ?_
        intro y hy
        rcases List.mem_cons.1 hy with rfl | hy
        · exact hx
        · exact h y hy
      · refine Or.inr ⟨x :: u, v, by rw [e]; rfl, ?_⟩
        intro y hy
        rcases List.mem_cons.1 hy with rfl | hy
        · exact hx
        · exact hu y hy

theorem split_last (d : List Char) (hd : ∀ c ∈ d, c ≠ '/') : ∀ (n : Nat) (a : List Char), a.length ≤ n →
    split '/' (a ++ '/' :: d) ≠ [] ∧ (split '/' (a ++ '/' :: d)).getLastD [] = d := by
  intro n
  induction n with
  | zero =>
    intro a ha
    have : a = [] := List.length_eq_zero_iff.1 (by omega)
    subst this
    rw [split_cons_sep [] d '/' (by simp), split_nil_sep d '/' hd]
    exact ⟨by simp, rfl⟩
  | succ n ih =>
    intro a ha
    rcases first_slash a with hs | ⟨u, v, e, hu⟩
    · rw [split_cons_sep a d '/' hs, split_nil_sep d '/' hd]
      exact ⟨by simp, rfl⟩
    · have hl : v.length ≤ n := by
        have := congrArg List.length e
        simp at this; omega
      have := ih v hl
      rw [e, List.append_assoc, List.cons_append, split_cons_sep u _ '/' hu]
      refine ⟨by simp, ?_⟩
      cases hq : split '/' (v ++ '/' :: d) with
      | nil => exact absurd hq this.1
      | cons q l =>
        rw [hq] at this
        have h2 := this.2
        simp only [List.getLastD_cons] at h2 ⊢
        exact h2

/-- The cleaner finds the number of the job of a rule. -/
theorem keyJob_exact {base : List Char} (hb : GoodBase base) (id : Nat) : (keyJob (frontendOf (prefixOf base id))).bind pyInt = some (id : Int) := by
  obtain ⟨t, ht⟩ := hb.1
  have hp := prefix_ascii hb id
  unfold keyJob
  have e : prefixOf base id = '/' :: (t ++ '/' :: digits id) := by rw [prefixOf, ht]; rfl
  rw [e] at hp ⊢
  rw [unescape_key _ (fun c hc => hp c (List.mem_cons_of_mem _ hc))]
  show pyInt ((split '/' (txt "frontend_" ++ '/' :: (t ++ '/' :: digits id))).getLastD []) = _
  rw [show txt "frontend_" ++ '/' :: (t ++ '/' :: digits id) = (txt "frontend_" ++ '/' :: t) ++ '/' :: digits id by simp,
    (split_last _ (fun c hc => (digits_ascii id c hc).2.1) _ _ (Nat.le_refl _)).2]
  exact pyInt_digits id

/-! ## The rules -/

theorem find_put {α : Type} (k : List Char) (v : α) (k' : List Char) : ∀ (l : List (List Char × α)),
    ((put k v l).find? (fun p => p.1 == k')).map (·.2) = if k' = k then some v else (l.find? (fun p => p.1 == k')).map (·.2)
  | [] => by
    by_cases h : k' = k
    · subst h; simp [put]
    · rw [if_neg h]
      have : (k == k') = false := by rw [beq_eq_false_iff_ne]; exact fun e => h e.symm
      simp [put, this]
  | p :: l => by
    unfold put
    by_cases hp : p.1 = k
    · rw [if_pos hp]
      by_cases h : k' = k
      · subst h; simp
      · rw [if_neg h]
        have h1 : (k == k') = false := by rw [beq_eq_false_iff_ne]; exact fun e => h e.symm
        have h2 : (p.1 == k') = false := by rw [hp]; exact h1
        rw [List.find?_cons, List.find?_cons]
        simp only [h1, h2]
    · rw [if_neg hp, List.find?_cons, List.find?_cons]
      by_cases h2 : (p.1 == k') = true
      · have e := eq_of_beq h2
        have hk : ¬ k' = k := by rw [← e]; exact hp
        rw [h2, if_neg hk]
      · have h2 : (p.1 == k') = false := by simpa using h2
        rw [h2]
        exact find_put k v k' l

theorem find_filter {α : Type} (k k' : List Char) : ∀ (l : List (List Char × α)),
    ((l.filter (fun p => p.1 != k)).find? (fun p => p.1 == k')).map (·.2) = if k' = k then none else (l.find? (fun p => p.1 == k')).map (·.2)
  | [] => by simp
  | p :: l => by
    have ih := find_filter k k' l
    rw [List.filter_cons]
    by_cases hp : p.1 = k
    · have : (p.1 != k) = false := by simp [hp]
      rw [if_neg (by simp [this]), ih]
      by_cases h : k' = k
      · rw [if_pos h, if_pos h]
      · rw [if_neg h, if_neg h, List.find?_cons]
        have h2 : (p.1 == k') = false := by rw [beq_eq_false_iff_ne, hp]; exact fun e => h e.symm
        simp only [h2]
    · have : (p.1 != k) = true := by simp [hp]
      rw [if_pos this, List.find?_cons, List.find?_cons]
      by_cases h2 : (p.1 == k') = true
      · have e := eq_of_beq h2
        rw [h2, if_neg (by rw [← e]; exact hp)]
      · have h2 : (p.1 == k') = false := by simpa using h2
        rw [h2]
        exact ih

theorem frontAt_add (r : Rules) (path t k : List Char) :
    frontAt (addRule r path t) k = if k = frontendOf path then some { backend := backendOf path, rule := txt "PathPrefix:" ++ path } else frontAt r k :=
  find_put _ _ _ _

theorem backAt_add (r : Rules) (path t k : List Char) :
    backAt (addRule r path t) k = if k = backendOf path then some t else backAt r k :=
  find_put _ _ _ _

theorem frontAt_del (r : Rules) (path k : List Char) : frontAt (delRule r path) k = if k = frontendOf path then none else frontAt r k := by
  unfold frontAt delRule
  cases r.frontends with
  | none => simp
  | some l => exact find_filter _ _ _

theorem backAt_del (r : Rules) (path k : List Char) : backAt (delRule r path) k = if k = backendOf path then none else backAt r k := by
  unfold backAt delRule
  cases r.backends with
  | none => simp
  | some l => exact find_filter _ _ _

/-- **C89.** A rule that is added is the one of its job; the rules of the other jobs are kept. -/
theorem rule_added {base : List Char} (hb : GoodBase base) (r : Rules) (id : Nat) (t : List Char) :
    ruleOf base (addRule r (prefixOf base id) t) id =
      some ({ backend := backendOf (prefixOf base id), rule := txt "PathPrefix:" ++ prefixOf base id }, t) ∧
    ∀ j, j ≠ id → ruleOf base (addRule r (prefixOf base id) t) j = ruleOf base r j := by
  constructor
  · unfold ruleOf
    rw [frontAt_add, backAt_add, if_pos rfl, if_pos rfl]
  · intro j hj
    unfold ruleOf
    rw [frontAt_add, backAt_add, if_neg (fun e => hj (frontend_inj hb e)), if_neg (fun e => hj (backend_inj hb e))]

/-- **C89.** A rule that is deleted is gone; the rules of the other jobs are kept. -/
theorem rule_deleted {base : List Char} (hb : GoodBase base) (r : Rules) (id : Nat) :
    ruleOf base (delRule r (prefixOf base id)) id = none ∧
    ∀ j, j ≠ id → ruleOf base (delRule r (prefixOf base id)) j = ruleOf base r j := by
  constructor
  · unfold ruleOf
    rw [frontAt_del, if_pos rfl]
  · intro j hj
    unfold ruleOf
    rw [frontAt_del, backAt_del, if_neg (fun e => hj (frontend_inj hb e)), if_neg (fun e => hj (backend_inj hb e))]

/-! ## Where the paths lead -/

theorem put_mem {α : Type} {k : List Char} {v : α} : ∀ {l : List (List Char × α)} {p : List Char × α}, p ∈ put k v l → p = (k, v) ∨ p ∈ l
  | [], p, h => Or.inl (List.mem_singleton.1 h)
  | q :: l, p, h => by
    unfold put at h
    by_cases hq : q.1 = k
    · rw [if_pos hq] at h
      rcases List.mem_cons.1 h with h | h
      · exact Or.inl h
      · exact Or.inr (List.mem_cons_of_mem _ h)
    · rw [if_neg hq] at h
      rcases List.mem_cons.1 h with h | h
      · exact Or.inr (h ▸ List.mem_cons_self)
      · rcases put_mem h with h | h
        · exact Or.inl h
        · exact Or.inr (List.mem_cons_of_mem _ h)

theorem put_nodup {α : Type} (k : List Char) (v : α) : ∀ (l : List (List Char × α)), (l.map (·.1)).Nodup → ((put k v l).map (·.1)).Nodup
  | [], _ => by simp [put]
  | q :: l, h => by
    unfold put
    have h' := List.nodup_cons.1 h
    by_cases hq : q.1 = k
    · rw [if_pos hq]
      exact List.nodup_cons.2 ⟨hq ▸ h'.1, h'.2⟩
    · rw [if_neg hq]
      refine List.nodup_cons.2 ⟨?_, put_nodup k v l h'.2⟩
      intro hm
      obtain ⟨p, hp, e⟩ := List.mem_map.1 hm
      rcases put_mem hp with rfl | hp
      · exact hq e.symm
      · exact h'.1 (List.mem_map.2 ⟨p, hp, e⟩)

theorem find_of_mem {α : Type} {k : List Char} {v : α} : ∀ {l : List (List Char × α)}, (l.map (·.1)).Nodup → (k, v) ∈ l →
    (l.find? (fun p => p.1 == k)).map (·.2) = some v
  | q :: l, hn, h => by
    have h' := List.nodup_cons.1 hn
    rw [List.find?_cons]
    rcases List.mem_cons.1 h with h | h
    · rw [← h]; simp
    · have : (q.1 == k) = false := by
        rw [beq_eq_false_iff_ne]
        intro e
        exact h'.1 (List.mem_map.2 ⟨(k, v), h, e.symm⟩)
      rw [this]
      exact find_of_mem h'.2 h

theorem mem_of_find {α : Type} {k : List Char} {v : α} {l : List (List Char × α)} (h : (l.find? (fun p => p.1 == k)).map (·.2) = some v) : (k, v) ∈ l := by
  cases hq : l.find? (fun p => p.1 == k) with
  | none => rw [hq] at h; simp at h
  | some p =>
    rw [hq] at h
    have h1 := List.mem_of_find?_eq_some hq
    have h2 := List.find?_some hq
    have e1 : p.1 = k := eq_of_beq h2
    have e2 : p.2 = v := by simpa using h
    rw [← e1, ← e2]
    exact h1

/-- What is in the rules made by the API. -/
def Shape (base : List Char) (r : Rules) : Prop :=
  (∀ p ∈ r.frontends.getD [], ∃ id, p = (frontendOf (prefixOf base id), { backend := backendOf (prefixOf base id), rule := txt "PathPrefix:" ++ prefixOf base id })) ∧
  ((r.backends.getD []).map (·.1)).Nodup

theorem made_shape {base : List Char} {r : Rules} (h : Made base r) : Shape base r := by
  induction h with
  | empty => exact ⟨by simp, by simp⟩
  | add r id t _ ih =>
    refine ⟨?_, put_nodup _ _ _ ih.2⟩
    intro p hp
    rcases put_mem (l := r.frontends.getD []) hp with rfl | hp
    · exact ⟨id, rfl⟩
    · exact ih.1 p hp
  | del r id _ ih =>
    constructor
    · intro p hp
      apply ih.1 p
      unfold delRule at hp
      cases hf : r.frontends with
      | none => rw [hf] at hp; exact absurd hp (by simp)
      | some l => rw [hf] at hp; exact (List.mem_filter.1 hp).1
    · have h2 := ih.2
      unfold delRule
      cases hf : r.backends with
      | none => simp
      | some l =>
        rw [hf] at h2
        exact (List.filter_sublist.map _).nodup h2

/-- **C89.** The paths of a job that has a rule lead to the address of that job, and nowhere else. -/
theorem led_exact {base : List Char} (hb : GoodBase base) {r : Rules} (h : Made base r) {id : Nat} {f : Front} {u path : List Char}
    (hr : ruleOf base r id = some (f, u)) (hp : Below base id path) (url : List Char) : Led r path url ↔ url = u := by
  have hs := made_shape h
  unfold ruleOf at hr
  cases hf : frontAt r (frontendOf (prefixOf base id)) with
  | none => rw [hf] at hr; simp at hr
  | some f' =>
  cases hu : backAt r (backendOf (prefixOf base id)) with
  | none => rw [hf, hu] at hr; simp at hr
  | some u' =>
  rw [hf, hu] at hr
  obtain ⟨rfl, rfl⟩ : f' = f ∧ u' = u := by simpa using hr
  have hfm := mem_of_find hf
  have hum := mem_of_find hu
  have hpre : prefixOf base id <+: path := by
    rcases hp with rfl | ⟨t, rfl⟩
    · exact List.prefix_refl _
    · exact List.prefix_append _ _
  obtain ⟨i, ei⟩ := hs.1 _ hfm
  have same : ∀ j, prefixOf base j <+: path → (prefixOf base id).length ≤ (prefixOf base j).length → j = id := by
    intro j hj hl
    have h1 : prefixOf base id <+: prefixOf base j := List.prefix_of_prefix_length_le hpre hj hl
    have h2 : digits id <+: digits j := by
      obtain ⟨x, hx⟩ := h1
      refine ⟨x, ?_⟩
      unfold prefixOf at hx
      rw [List.append_assoc] at hx
      exact List.cons_inj_right _ |>.1 (List.append_cancel_left hx)
    rcases hp with rfl | ⟨t, rfl⟩
    · exact (prefix_inj (h1.eq_of_length_le hj.length_le)).symm
    · obtain ⟨x, hx⟩ := h2
      obtain ⟨y, hy⟩ := hj
      cases x with
      | nil => exact (digits_inj (by rw [← hx, List.append_nil])).symm
      | cons c x =>
        exfalso
        have : c ≠ '/' := (digits_ascii j c (by rw [← hx]; simp)).2.1
        unfold prefixOf at hy
        rw [← hx, List.append_assoc, List.append_assoc] at hy
        have hy2 := List.cons_inj_right _ |>.1 (List.append_cancel_left hy)
        have hy2 : digits id ++ c :: x ++ y = digits id ++ '/' :: t := hy2
        rw [List.append_assoc] at hy2
        have hy3 := List.append_cancel_left hy2
        exact this (List.cons.inj hy3).1
  have ef : f' = { backend := backendOf (prefixOf base i), rule := txt "PathPrefix:" ++ prefixOf base i } := (Prod.mk.inj ei).2
  have ek : frontendOf (prefixOf base id) = frontendOf (prefixOf base i) := (Prod.mk.inj ei).1
  have hi : id = i := frontend_inj hb ek
  subst hi
  have hm : Matches r path f' := ⟨⟨_, hfm⟩, prefixOf base id, by rw [ef], hpre⟩
  constructor
  · rintro ⟨g, ⟨⟨k, hk⟩, p, hg, hgp⟩, hmax, hback⟩
    obtain ⟨j, ej⟩ := hs.1 _ hk
    have eg : g = { backend := backendOf (prefixOf base j), rule := txt "PathPrefix:" ++ prefixOf base j } := (Prod.mk.inj ej).2
    have hpj : p = prefixOf base j := by
      rw [eg] at hg
      exact (List.append_cancel_left hg).symm
    have hl := hmax f' hm
    rw [eg, ef] at hl
    simp only [List.length_append] at hl
    have hj : j = id := same j (hpj ▸ hgp) (by omega)
    subst hj
    rw [eg] at hback
    have := find_of_mem hs.2 hback
    have h2 : some url = some u' := by rw [← this]; exact hu
    exact Option.some.inj h2
  · rintro rfl
    refine ⟨f', hm, ?_, by rw [ef]; exact hum⟩
    rintro g ⟨⟨k, hk⟩, p, hg, hgp⟩
    obtain ⟨j, ej⟩ := hs.1 _ hk
    have eg : g = { backend := backendOf (prefixOf base j), rule := txt "PathPrefix:" ++ prefixOf base j } := (Prod.mk.inj ej).2
    have hpj : p = prefixOf base j := by
      rw [eg] at hg
      exact (List.append_cancel_left hg).symm
    rcases Nat.lt_or_ge (prefixOf base id).length (prefixOf base j).length with hl | hl
    · have := same j (hpj ▸ hgp) (by omega)
      subst this
      omega
    · rw [eg, ef]
      simp only [List.length_append]
      omega

/-! ## The request -/

theorem netloc_host (s : List Char) : ∀ c ∈ netloc s, c ≠ '/' ∧ c ≠ '?' ∧ c ≠ '#' := by
  unfold netloc
  split
  · rename_i r
    intro c hc
    have : ∀ (l : List Char), c ∈ l.takeWhile (fun c => c != '/' && c != '?' && c != '#') → (c != '/' && c != '?' && c != '#') = true := by
      intro l
      induction l with
      | nil => simp
      | cons x l ih =>
        rw [List.takeWhile_cons]
        split
        · intro h
          rcases List.mem_cons.1 h with rfl | h
          · assumption
          · exact ih h
        · simp
    have := this r hc
    simp only [Bool.and_eq_true, bne_iff_ne] at this
    exact ⟨this.1.1, this.1.2, this.2⟩
  · simp

/-- **C89.** A request is honoured only for the owner of the job (or oar, root), who can read the file of the job; the rule leads the job to the host of the file. -/
theorem request_allowed {c : Config} {db : List Job} {w : World} {user : List Char} {id : Nat} {file : Option Rules} {u : List Char} {file' : Option Rules}
    (h : proxy c db w user id file = (.redirect u, file')) :
    ∃ j r s n, j ∈ db ∧ j.id = id ∧ Allowed user j ∧ w.exist user (proxyFile j) = true ∧ w.readable user (proxyFile j) = true ∧
      w.content user (proxyFile j) = .url s ∧ urlparse s = some (txt "http", n) ∧ Host n ∧
      file = some r ∧ u = c.entry ++ prefixOf c.base id ∧ file' = some (addRule r (prefixOf c.base id) (txt "http://" ++ n)) := by
  unfold proxy at h
  cases ht : target c db w user id with
  | error n => rw [ht] at h; simp at h
  | ok t =>
  cases hfile : file with
  | none => rw [ht, hfile] at h; simp at h
  | some r =>
  rw [ht, hfile] at h
  simp only [Prod.mk.injEq, Answer.redirect.injEq] at h
  unfold target at ht
  by_cases h0 : c.proxy ≠ txt "traefik"
  · rw [if_pos h0] at ht; cases ht
  rw [if_neg h0] at ht
  cases hj : db.find? (fun j => j.id == id) with
  | none => rw [hj] at ht; cases ht
  | some j =>
  rw [hj] at ht
  dsimp only at ht
  by_cases h1 : j.user ≠ user ∧ user ≠ txt "oar" ∧ user ≠ txt "root"
  · rw [if_pos h1] at ht; cases ht
  rw [if_neg h1] at ht
  by_cases h2 : w.exist user (proxyFile j) = false
  · rw [if_pos h2] at ht; cases ht
  rw [if_neg h2] at ht
  by_cases h3 : w.readable user (proxyFile j) = false
  · rw [if_pos h3] at ht; cases ht
  rw [if_neg h3] at ht
  cases hc : w.content user (proxyFile j) with
  | invalid => rw [hc] at ht; cases ht
  | noUrl => rw [hc] at ht; cases ht
  | raises => rw [hc] at ht; cases ht
  | url s =>
  rw [hc] at ht
  dsimp only at ht
  cases hu : urlparse s with
  | none => rw [hu] at ht; cases ht
  | some x =>
  rw [hu] at ht
  dsimp only at ht
  by_cases h4 : x.2 = []
  · rw [if_pos h4] at ht; cases ht
  rw [if_neg h4] at ht
  by_cases h5 : x.1 ≠ txt "http"
  · rw [if_pos h5] at ht; cases ht
  rw [if_neg h5] at ht
  have h5 : x.1 = txt "http" := Classical.not_not.1 h5
  have ht := Except.ok.inj ht
  refine ⟨j, r, s, x.2, List.mem_of_find?_eq_some hj, by have := List.find?_some hj; simpa using this, ?_, by simpa using h2, by simpa using h3, hc, ?_, ⟨h4, ?_⟩, rfl, h.1.symm, ?_⟩
  · unfold Allowed
    by_cases a : user = j.user
    · exact Or.inl a
    by_cases b : user = txt "oar"
    · exact Or.inr (Or.inl b)
    by_cases d : user = txt "root"
    · exact Or.inr (Or.inr d)
    exact absurd ⟨fun e => a e.symm, b, d⟩ h1
  · rw [hu, ← h5]
  · unfold urlparse at hu
    dsimp only at hu
    split at hu
    · cases hu
    · have := Option.some.inj hu
      rw [← this]
      exact netloc_host _
  · rw [← h.2, ← ht, h5]
    rfl

/-- **C89.** A request that is refused changes nothing; the codes of the refusals. -/
theorem request_refused {c : Config} {db : List Job} {w : World} {user : List Char} {id : Nat} {file : Option Rules} {n : Nat} {file' : Option Rules}
    (h : proxy c db w user id file = (.error n, file')) : file' = file ∧ (n = 404 ∨ n = 403 ∨ n = 500) := by
  unfold proxy at h
  cases ht : target c db w user id with
  | error m =>
    rw [ht] at h
    simp only [Prod.mk.injEq, Answer.error.injEq] at h
    refine ⟨h.2.symm, ?_⟩
    rw [← h.1]
    unfold target at ht
    repeat' split at ht
    all_goals first
      | (cases ht; simp)
      | cases ht
  | ok t =>
    cases hfile : file with
    | none =>
      rw [ht, hfile] at h
      simp only [Prod.mk.injEq, Answer.error.injEq] at h
      exact ⟨h.2.symm, by omega⟩
    | some r => rw [ht, hfile] at h; simp at h

/-- **C89.** A user who is neither the owner of the job nor oar nor root is refused, whatever the files. -/
theorem other_user_refused {c : Config} {db : List Job} {w : World} {user : List Char} {id : Nat} {file : Option Rules} {j : Job} (hc : c.proxy = txt "traefik")
    (hj : db.find? (fun j => j.id == id) = some j) (ha : ¬ Allowed user j) : proxy c db w user id file = (.error 403, file) := by
  have : target c db w user id = .error 403 := by
    unfold target
    rw [if_neg (by rw [hc]; simp), hj]
    dsimp only
    rw [if_pos]
    unfold Allowed at ha
    exact ⟨fun e => ha (Or.inl e.symm), fun e => ha (Or.inr (Or.inl e)), fun e => ha (Or.inr (Or.inr e))⟩
  unfold proxy
  rw [this]

/-- **C89.** The owner of a job that wrote the address of a host gets its rule. -/
theorem request_served {c : Config} {db : List Job} {w : World} {user : List Char} {id : Nat} {r : Rules} {j : Job} {s n : List Char} (hc : c.proxy = txt "traefik")
    (hj : db.find? (fun j => j.id == id) = some j) (ha : Allowed user j) (he : w.exist user (proxyFile j) = true) (hr : w.readable user (proxyFile j) = true)
    (hs : w.content user (proxyFile j) = .url s) (hu : urlparse s = some (txt "http", n)) (hn : n ≠ []) :
    proxy c db w user id (some r) = (.redirect (c.entry ++ prefixOf c.base id), some (addRule r (prefixOf c.base id) (txt "http://" ++ n))) := by
  have : target c db w user id = .ok (txt "http://" ++ n) := by
    unfold target
    rw [if_neg (by rw [hc]; simp), hj]
    dsimp only
    rw [if_neg, if_neg (by rw [he]; simp), if_neg (by rw [hr]; simp), hs]
    · dsimp only
      rw [hu]
      dsimp only
      rw [if_neg hn, if_neg (by simp)]
      rfl
    · rintro ⟨h1, h2, h3⟩
      rcases ha with h | h | h
      · exact h1 h.symm
      · exact h2 h
      · exact h3 h
  unfold proxy
  rw [this]

/-- The addresses of the manual: `http://host:port`, with any path. -/
theorem urlparse_http {n p : List Char} (hn : ∀ c ∈ n, c ≠ '/' ∧ c ≠ '?' ∧ c ≠ '#' ∧ c ≠ '[' ∧ c ≠ ']' ∧ 32 < c.toNat)
    (hp : p = [] ∨ ∃ t, p = '/' :: t) : urlparse (txt "http://" ++ n ++ p) = some (txt "http", n) := by
  have key : ∀ q : List Char, (q = [] ∨ ∃ t, q = '/' :: t) → netloc ('/' :: '/' :: (n ++ q)) = n := by
    intro q hq
    show (n ++ q).takeWhile (fun c => c != '/' && c != '?' && c != '#') = n
    rw [List.takeWhile_append_of_pos]
    · rcases hq with rfl | ⟨t, rfl⟩
      · simp
      · simp
    · intro c hc
      have := hn c hc
      simp [this.1, this.2.1, this.2.2.1]
  have hclean : ∀ q, cleanUrl (txt "http://" ++ n ++ q) = txt "http://" ++ n ++ q.filter (fun c => c != '\t' && c != '\n' && c != '\r') := by
    intro q
    unfold cleanUrl
    have : (txt "http://" ++ n ++ q).dropWhile (fun c => decide (c.toNat ≤ 32)) = txt "http://" ++ n ++ q := by
      show ('h' :: (txt "ttp://" ++ n ++ q)).dropWhile _ = _
      rw [List.dropWhile_cons]
      rw [if_neg (by decide)]; rfl
    rw [this, List.filter_append, List.filter_append]
    rw [show (txt "http://").filter (fun c => c != '\t' && c != '\n' && c != '\r') = txt "http://" by decide +kernel]
    rw [List.filter_eq_self.2]
    intro c hc
    have := (hn c hc).2.2.2.2.2
    have h1 : c ≠ '\t' := by rintro rfl; revert this; decide
    have h2 : c ≠ '\n' := by rintro rfl; revert this; decide
    have h3 : c ≠ '\r' := by rintro rfl; revert this; decide
    simp [h1, h2, h3]
  have hsch : ∀ q, scheme (txt "http://" ++ n ++ q) = (txt "http", '/' :: '/' :: (n ++ q)) := by
    intro q
    unfold scheme
    have e1 : (txt "http://" ++ n ++ q).takeWhile (· != ':') = txt "http" := by
      show ('h' :: 't' :: 't' :: 'p' :: ':' :: ('/' :: '/' :: (n ++ q))).takeWhile _ = _
      simp [txt]
    have e2 : (txt "http://" ++ n ++ q).dropWhile (· != ':') = ':' :: '/' :: '/' :: (n ++ q) := by
      show ('h' :: 't' :: 't' :: 'p' :: ':' :: ('/' :: '/' :: (n ++ q))).dropWhile _ = _
      simp
    dsimp only
    rw [e1, e2, if_pos ⟨by simp, by decide +kernel, by decide +kernel, by decide +kernel⟩]
    rw [show (txt "http").map lower = txt "http" by decide +kernel]
    rfl
  unfold urlparse
  dsimp only
  rw [hclean, hsch]
  dsimp only
  have hq : p.filter (fun c => c != '\t' && c != '\n' && c != '\r') = [] ∨ ∃ t, p.filter (fun c => c != '\t' && c != '\n' && c != '\r') = '/' :: t := by
    rcases hp with rfl | ⟨t, rfl⟩
    · exact Or.inl rfl
    · exact Or.inr ⟨_, by rw [List.filter_cons_of_pos (by decide)]⟩
  rw [key _ hq, if_neg]
  have h1 : n.contains '[' = false := by
    rw [Bool.eq_false_iff]
    intro h
    exact (hn '[' (List.contains_iff_mem.1 h)).2.2.2.1 rfl
  have h2 : n.contains ']' = false := by
    rw [Bool.eq_false_iff]
    intro h
    exact (hn ']' (List.contains_iff_mem.1 h)).2.2.2.2.1 rfl
  rw [h1, h2]; simp

/-! ## The cleaner -/

theorem keyIds_made {base : List Char} (hb : GoodBase base) : ∀ (l : List (List Char × Front)), (∀ p ∈ l, ∃ id, p.1 = frontendOf (prefixOf base id)) →
    ∃ ids, keyIds l = some ids ∧ ∀ id : Nat, (id : Int) ∈ ids ↔ ∃ p ∈ l, p.1 = frontendOf (prefixOf base id)
  | [], _ => ⟨[], rfl, by simp⟩
  | p :: l, h => by
    obtain ⟨ids, e, hi⟩ := keyIds_made hb l (fun q hq => h q (List.mem_cons_of_mem _ hq))
    obtain ⟨i, ep⟩ := h p List.mem_cons_self
    refine ⟨(i : Int) :: ids, ?_, ?_⟩
    · unfold keyIds
      rw [ep, keyJob_exact hb, e]
    · intro id
      constructor
      · intro hm
        rcases List.mem_cons.1 hm with hm | hm
        · have : id = i := by omega
          subst this
          exact ⟨p, List.mem_cons_self, ep⟩
        · obtain ⟨q, hq, eq⟩ := (hi id).1 hm
          exact ⟨q, List.mem_cons_of_mem _ hq, eq⟩
      · rintro ⟨q, hq, eq⟩
        rcases List.mem_cons.1 hq with rfl | hq
        · have : i = id := frontend_inj hb (by rw [← ep, eq])
          rw [this]; exact List.mem_cons_self
        · exact List.mem_cons_of_mem _ ((hi id).2 ⟨q, hq, eq⟩)

theorem del_loop {base : List Char} (hb : GoodBase base) (id : Nat) : ∀ (l : List Job) (r : Rules),
    (id ∈ l.map (·.id) → ruleOf base (l.foldl (fun r j => delRule r (prefixOf base j.id)) r) id = none) ∧
    (id ∉ l.map (·.id) → ruleOf base (l.foldl (fun r j => delRule r (prefixOf base j.id)) r) id = ruleOf base r id)
  | [], r => ⟨by simp, fun _ => rfl⟩
  | j :: l, r => by
    have ih := del_loop hb id l (delRule r (prefixOf base j.id))
    by_cases hm : id ∈ l.map (·.id)
    · exact ⟨fun _ => ih.1 hm, fun h => absurd (List.mem_cons_of_mem _ hm) h⟩
    · constructor
      · intro h
        rcases List.mem_cons.1 h with h | h
        · have h : id = j.id := h
          show ruleOf base (l.foldl _ (delRule r (prefixOf base j.id))) id = none
          rw [ih.2 hm, ← h]
          exact (rule_deleted hb r id).1
        · exact absurd h hm
      · intro h
        show ruleOf base (l.foldl _ (delRule r (prefixOf base j.id))) id = _
        rw [ih.2 hm]
        exact (rule_deleted hb r j.id).2 id (fun e => h (e ▸ List.mem_cons_self))

theorem made_del {base : List Char} : ∀ (l : List Job) (r : Rules), Made base r → Made base (l.foldl (fun r j => delRule r (prefixOf base j.id)) r)
  | [], _, h => h
  | _ :: l, _, h => made_del l _ (Made.del _ _ h)

/-- **C89.** A round of the cleaner deletes exactly the rules of the jobs of the database that are in Error or Terminated. -/
theorem clean_exact {base : List Char} (hb : GoodBase base) {r : Rules} (h : Made base r) (db : List Job) :
    ∃ r', clean base db (some r) = some (some r') ∧ Made base r' ∧ ∀ id,
      ((∃ j ∈ db, j.id = id ∧ (j.state = "Error" ∨ j.state = "Terminated")) → ruleOf base r' id = none) ∧
      ((∀ j ∈ db, j.id = id → j.state ≠ "Error" ∧ j.state ≠ "Terminated") → ruleOf base r' id = ruleOf base r id) := by
  unfold clean
  dsimp only
  cases hf : r.frontends with
  | none =>
    refine ⟨r, rfl, h, ?_⟩
    intro id
    have : ruleOf base r id = none := by
      unfold ruleOf frontAt
      rw [hf]; rfl
    exact ⟨fun _ => this, fun _ => rfl⟩
  | some fs =>
    have hs := (made_shape h).1
    rw [hf] at hs
    obtain ⟨ids, e, hi⟩ := keyIds_made hb fs (fun p hp => by
      obtain ⟨id, e⟩ := hs p hp
      exact ⟨id, by rw [e]⟩)
    dsimp only
    rw [e]
    dsimp only
    refine ⟨_, rfl, made_del _ r h, ?_⟩
    intro id
    have loop := del_loop hb id (db.filter (fun j => ids.contains (j.id : Int) && over j)) r
    constructor
    · rintro ⟨j, hj, ej, hst⟩
      by_cases hin : (id : Int) ∈ ids
      · apply loop.1
        refine List.mem_map.2 ⟨j, List.mem_filter.2 ⟨hj, ?_⟩, ej⟩
        rw [ej, List.contains_iff_mem.2 hin]
        rcases hst with h | h <;> simp [over, h]
      · have hno : id ∉ (db.filter (fun j => ids.contains (j.id : Int) && over j)).map (·.id) := by
          intro hm
          obtain ⟨k, hk, ek⟩ := List.mem_map.1 hm
          have := (List.mem_filter.1 hk).2
          rw [Bool.and_eq_true] at this
          exact hin (ek ▸ List.contains_iff_mem.1 this.1)
        rw [loop.2 hno]
        unfold ruleOf
        have : frontAt r (frontendOf (prefixOf base id)) = none := by
          cases hq : frontAt r (frontendOf (prefixOf base id)) with
          | none => rfl
          | some f =>
            have hm := mem_of_find hq
            rw [hf] at hm
            exact absurd ((hi id).2 ⟨_, hm, rfl⟩) hin
        rw [this]
    · intro hno
      apply loop.2
      intro hm
      obtain ⟨k, hk, ek⟩ := List.mem_map.1 hm
      have h2 := (List.mem_filter.1 hk).2
      rw [Bool.and_eq_true] at h2
      have h3 := hno k (List.mem_filter.1 hk).1 ek
      have h4 := h2.2
      simp [over, h3.1, h3.2] at h4

/-- **C89.** From an empty file, whatever the requests, the rules are those of the model `Made`: the theorems on the rules apply to them. -/
theorem requests_made {c : Config} (hb : GoodBase c.base) : ∀ (rs : List (List Job × World × List Char × Nat × Bool)) (r : Rules), Made c.base r →
    ∃ r', rs.foldl (fun f q => if q.2.2.2.2 then (clean c.base q.1 f).getD f else (proxy c q.1 q.2.1 q.2.2.1 q.2.2.2.1 f).2) (some r) = some r' ∧ Made c.base r'
  | [], r, h => ⟨r, rfl, h⟩
  | q :: rs, r, h => by
    have : ∃ r', (if q.2.2.2.2 then (clean c.base q.1 (some r)).getD (some r) else (proxy c q.1 q.2.1 q.2.2.1 q.2.2.2.1 (some r)).2) = some r' ∧ Made c.base r' := by
      by_cases hq : q.2.2.2.2 = true
      · rw [if_pos hq]
        obtain ⟨r', e, hm, _⟩ := clean_exact hb h q.1
        exact ⟨r', by rw [e]; rfl, hm⟩
      · rw [if_neg hq]
        unfold proxy
        cases target c q.1 q.2.1 q.2.2.1 q.2.2.2.1 with
        | error n => exact ⟨r, rfl, h⟩
        | ok t => exact ⟨_, rfl, Made.add _ _ _ h⟩
    obtain ⟨r', e, hm⟩ := this
    rw [List.foldl_cons, e]
    exact requests_made hb rs r' hm

/-! ## Requests at the same time -/

/-- What a thread of the initial system does. -/
def updateOf (s0 : Sys) (i : Nat) (r : Rules) : Rules := (s0.threads[i]?.map (fun t => t.update r)).getD r

/-- The beginning: no lock, no thread has begun. -/
def Start (s0 : Sys) : Prop := s0.owner = none ∧ s0.log = [] ∧ ∀ t ∈ s0.threads, t.pc = .waiting

/-- Each request is in its own process. -/
def OwnProcess (s0 : Sys) : Prop := ∀ (i j : Nat) (t u : Thread), s0.threads[i]? = some t → s0.threads[j]? = some u → t.proc = u.proc → i = j

/-- A thread in its critical section. -/
def Critical (pc : Pc) : Prop := pc = .locked ∨ pc = .saved ∨ ∃ r, pc = .loaded r

structure Inv (s0 s : Sys) : Prop where
  same : ∀ (i : Nat) (t : Thread), s.threads[i]? = some t → ∃ u, s0.threads[i]? = some u ∧ t.proc = u.proc ∧ t.update = u.update
  lock : ∀ (i : Nat) (t : Thread), s.threads[i]? = some t → Critical t.pc → s.owner = some t.proc
  fresh : ∀ (i : Nat) (t : Thread) (r : Rules), s.threads[i]? = some t → t.pc = .loaded r → r = s.file
  file : s.file = s.log.foldr (updateOf s0) s0.file
  nodup : s.log.Nodup
  logged : ∀ (i : Nat) (t : Thread), s.threads[i]? = some t → (t.pc = .saved ∨ t.pc = .finished → i ∈ s.log)
  past : ∀ (i : Nat) (t : Thread), s.threads[i]? = some t → i ∈ s.log → t.pc = .saved ∨ t.pc = .finished ∨ t.pc = .dead

theorem inv_start {s0 : Sys} (h : Start s0) : Inv s0 s0 where
  same i t ht := ⟨t, ht, rfl, rfl⟩
  lock i t ht hc := by
    have := h.2.2 t (List.mem_of_getElem? ht)
    rw [this] at hc
    rcases hc with hc | hc | ⟨_, hc⟩ <;> cases hc
  fresh i t r ht hc := by
    have := h.2.2 t (List.mem_of_getElem? ht)
    rw [this] at hc; cases hc
  file := by rw [h.2.1]; rfl
  nodup := by rw [h.2.1]; exact List.nodup_nil
  logged i t ht hc := by
    have := h.2.2 t (List.mem_of_getElem? ht)
    rw [this] at hc
    rcases hc with hc | hc <;> cases hc
  past i t ht hc := by rw [h.2.1] at hc; simp at hc

theorem set_cases {s : Sys} {i j : Nat} {t v u : Thread} (ht : s.threads[i]? = some t) (h : (s.threads.set i v)[j]? = some u) :
    (j = i ∧ u = v) ∨ (j ≠ i ∧ s.threads[j]? = some u) := by
  by_cases e : j = i
  · subst e
    have hl : j < s.threads.length := (List.getElem?_eq_some_iff.1 ht).1
    rw [List.getElem?_set_self hl] at h
    exact Or.inl ⟨rfl, (Option.some.inj h).symm⟩
  · rw [List.getElem?_set_ne (fun h => e h.symm)] at h
    exact Or.inr ⟨e, h⟩

theorem inv_step {s0 s : Sys} (hown : OwnProcess s0) (h : Inv s0 s) (i : Nat) (t : Thread) (ht : s.threads[i]? = some t) : Inv s0 (stepThread s i t) := by
  obtain ⟨t0, ht0, hp0, hu0⟩ := h.same i t ht
  have other : ∀ (j : Nat) (u : Thread), s.threads[j]? = some u → u.proc = t.proc → j = i := by
    intro j u hu e
    obtain ⟨u0, hu0', hp, _⟩ := h.same j u hu
    exact hown j i u0 t0 hu0' ht0 (by rw [← hp, e, hp0])
  unfold stepThread
  cases hpc : t.pc with
  | waiting =>
    dsimp only
    by_cases hl : s.owner = none ∨ s.owner = some t.proc
    · rw [if_pos hl]
      refine ⟨?_, ?_, ?_, h.file, h.nodup, ?_, ?_⟩
      · intro j u hu
        rcases set_cases ht hu with ⟨rfl, rfl⟩ | ⟨_, hu⟩
        · exact ⟨t0, ht0, hp0, hu0⟩
        · exact h.same j u hu
      · intro j u hu hc
        rcases set_cases ht hu with ⟨rfl, rfl⟩ | ⟨hne, hu⟩
        · rfl
        · have ho := h.lock j u hu hc
          rcases hl with hl | hl
          · rw [hl] at ho; cases ho
          · rw [hl] at ho
            exact absurd (other j u hu (Option.some.inj ho).symm) hne
      · intro j u r hu hc
        rcases set_cases ht hu with ⟨rfl, rfl⟩ | ⟨_, hu⟩
        · cases hc
        · exact h.fresh j u r hu hc
      · intro j u hu hc
        rcases set_cases ht hu with ⟨rfl, rfl⟩ | ⟨_, hu⟩
        · rcases hc with hc | hc <;> cases hc
        · exact h.logged j u hu hc
      · intro j u hu hc
        rcases set_cases ht hu with ⟨rfl, rfl⟩ | ⟨_, hu⟩
        · have := h.past j t ht hc
          rw [hpc] at this
          rcases this with h | h | h <;> cases h
        · exact h.past j u hu hc
    · rw [if_neg hl]; exact h
  | locked =>
    dsimp only
    refine ⟨?_, ?_, ?_, h.file, h.nodup, ?_, ?_⟩
    · intro j u hu
      rcases set_cases ht hu with ⟨rfl, rfl⟩ | ⟨_, hu⟩
      · exact ⟨t0, ht0, hp0, hu0⟩
      · exact h.same j u hu
    · intro j u hu hc
      rcases set_cases ht hu with ⟨rfl, rfl⟩ | ⟨hne, hu⟩
      · exact h.lock j t ht (Or.inl hpc)
      · exact h.lock j u hu hc
    · intro j u r hu hc
      rcases set_cases ht hu with ⟨rfl, rfl⟩ | ⟨_, hu⟩
      · exact (Pc.loaded.inj hc).symm
      · exact h.fresh j u r hu hc
    · intro j u hu hc
      rcases set_cases ht hu with ⟨rfl, rfl⟩ | ⟨_, hu⟩
      · rcases hc with hc | hc <;> cases hc
      · exact h.logged j u hu hc
    · intro j u hu hc
      rcases set_cases ht hu with ⟨rfl, rfl⟩ | ⟨_, hu⟩
      · have := h.past j t ht hc
        rw [hpc] at this
        rcases this with h | h | h <;> cases h
      · exact h.past j u hu hc
  | loaded r =>
    dsimp only
    have hr := h.fresh i t r ht hpc
    have ho := h.lock i t ht (Or.inr (Or.inr ⟨r, hpc⟩))
    refine ⟨?_, ?_, ?_, ?_, ?_, ?_, ?_⟩
    · intro j u hu
      rcases set_cases ht hu with ⟨rfl, rfl⟩ | ⟨_, hu⟩
      · exact ⟨t0, ht0, hp0, hu0⟩
      · exact h.same j u hu
    · intro j u hu hc
      rcases set_cases ht hu with ⟨rfl, rfl⟩ | ⟨hne, hu⟩
      · exact ho
      · exact h.lock j u hu hc
    · intro j u r' hu hc
      rcases set_cases ht hu with ⟨rfl, rfl⟩ | ⟨hne, hu⟩
      · cases hc
      · have := h.lock j u hu (Or.inr (Or.inr ⟨r', hc⟩))
        rw [ho] at this
        exact absurd (other j u hu (Option.some.inj this).symm) hne
    · show t.update r = updateOf s0 i (s.log.foldr (updateOf s0) s0.file)
      rw [← h.file, hr]
      unfold updateOf
      rw [ht0, hu0]; rfl
    · refine List.nodup_cons.2 ⟨?_, h.nodup⟩
      intro hm
      have := h.past i t ht hm
      rw [hpc] at this
      rcases this with h | h | h <;> cases h
    · intro j u hu hc
      rcases set_cases ht hu with ⟨rfl, rfl⟩ | ⟨_, hu⟩
      · exact List.mem_cons_self
      · exact List.mem_cons_of_mem _ (h.logged j u hu hc)
    · intro j u hu hc
      rcases set_cases ht hu with ⟨rfl, rfl⟩ | ⟨hne, hu⟩
      · exact Or.inl rfl
      · rcases List.mem_cons.1 hc with hc | hc
        · exact absurd hc hne
        · exact h.past j u hu hc
  | saved =>
    dsimp only
    have ho := h.lock i t ht (Or.inr (Or.inl hpc))
    refine ⟨?_, ?_, ?_, h.file, h.nodup, ?_, ?_⟩
    · intro j u hu
      rcases set_cases ht hu with ⟨rfl, rfl⟩ | ⟨_, hu⟩
      · exact ⟨t0, ht0, hp0, hu0⟩
      · exact h.same j u hu
    · intro j u hu hc
      rcases set_cases ht hu with ⟨rfl, rfl⟩ | ⟨hne, hu⟩
      · rcases hc with hc | hc | ⟨_, hc⟩ <;> cases hc
      · have := h.lock j u hu hc
        rw [ho] at this
        exact absurd (other j u hu (Option.some.inj this).symm) hne
    · intro j u r hu hc
      rcases set_cases ht hu with ⟨rfl, rfl⟩ | ⟨_, hu⟩
      · cases hc
      · exact h.fresh j u r hu hc
    · intro j u hu hc
      rcases set_cases ht hu with ⟨rfl, rfl⟩ | ⟨_, hu⟩
      · exact h.logged j t ht (Or.inl hpc)
      · exact h.logged j u hu hc
    · intro j u hu hc
      rcases set_cases ht hu with ⟨rfl, rfl⟩ | ⟨_, hu⟩
      · exact Or.inr (Or.inl rfl)
      · exact h.past j u hu hc
  | finished => exact h
  | dead => exact h

theorem inv_crash {s0 s : Sys} (h : Inv s0 s) (p : Nat) : Inv s0 (event s (.crash p)) := by
  have get : ∀ (j : Nat) (u : Thread), (event s (.crash p)).threads[j]? = some u →
      ∃ t, s.threads[j]? = some t ∧ u = (if t.proc = p ∧ t.pc ≠ .finished then { t with pc := .dead } else t) := by
    intro j u hu
    have hu : (s.threads.map _)[j]? = some u := hu
    rw [List.getElem?_map] at hu
    cases hj : s.threads[j]? with
    | none => rw [hj] at hu; cases hu
    | some t =>
      rw [hj] at hu
      exact ⟨t, rfl, (Option.some.inj hu).symm⟩
  refine ⟨?_, ?_, ?_, h.file, h.nodup, ?_, ?_⟩
  · intro j u hu
    obtain ⟨t, ht, e⟩ := get j u hu
    obtain ⟨t0, h1, h2, h3⟩ := h.same j t ht
    refine ⟨t0, h1, ?_, ?_⟩
    · rw [e]; split <;> exact h2
    · rw [e]; split <;> exact h3
  · intro j u hu hc
    obtain ⟨t, ht, e⟩ := get j u hu
    by_cases hd : t.proc = p ∧ t.pc ≠ .finished
    · rw [if_pos hd] at e
      rw [e] at hc
      rcases hc with hc | hc | ⟨_, hc⟩ <;> cases hc
    · rw [if_neg hd] at e
      subst e
      have ho := h.lock j u ht hc
      show (if s.owner = some p then none else s.owner) = _
      rw [if_neg, ho]
      rw [ho]
      intro e2
      apply hd
      refine ⟨Option.some.inj e2, ?_⟩
      intro hf
      rw [hf] at hc
      rcases hc with hc | hc | ⟨_, hc⟩ <;> cases hc
  · intro j u r hu hc
    obtain ⟨t, ht, e⟩ := get j u hu
    by_cases hd : t.proc = p ∧ t.pc ≠ .finished
    · rw [if_pos hd] at e
      rw [e] at hc; cases hc
    · rw [if_neg hd] at e
      subst e
      exact h.fresh j u r ht hc
  · intro j u hu hc
    obtain ⟨t, ht, e⟩ := get j u hu
    by_cases hd : t.proc = p ∧ t.pc ≠ .finished
    · rw [if_pos hd] at e
      rw [e] at hc
      rcases hc with hc | hc <;> cases hc
    · rw [if_neg hd] at e
      subst e
      exact h.logged j u ht hc
  · intro j u hu hc
    obtain ⟨t, ht, e⟩ := get j u hu
    by_cases hd : t.proc = p ∧ t.pc ≠ .finished
    · rw [if_pos hd] at e
      rw [e]; exact Or.inr (Or.inr rfl)
    · rw [if_neg hd] at e
      subst e
      exact h.past j u ht hc

theorem inv_run {s0 : Sys} (hown : OwnProcess s0) : ∀ (es : List Event) (s : Sys), Inv s0 s → Inv s0 (run s es)
  | [], _, h => h
  | .step i :: es, s, h => by
    apply inv_run hown es
    show Inv s0 (match s.threads[i]? with | none => s | some t => stepThread s i t)
    cases ht : s.threads[i]? with
    | none => exact h
    | some t => exact inv_step hown h i t ht
  | .crash p :: es, s, h => inv_run hown es _ (inv_crash h p)

/-- **C89.** When each request (or round of the cleaner) is in its own process, any interleaving, with any crashes, has the effect of the requests that wrote the file, one after
the other; and each one that came to its end is among them. -/
theorem serial {s0 : Sys} (h0 : Start s0) (hown : OwnProcess s0) (es : List Event) :
    (run s0 es).file = (run s0 es).log.foldr (updateOf s0) s0.file ∧ (run s0 es).log.Nodup ∧
    ∀ (i : Nat) (t : Thread), (run s0 es).threads[i]? = some t → t.pc = .finished → i ∈ (run s0 es).log := by
  have h := inv_run hown es s0 (inv_start h0)
  exact ⟨h.file, h.nodup, fun i t ht hc => h.logged i t ht (Or.inr hc)⟩

/-- **C89.** Requests for different jobs, each in its own process: no rule is lost. -/
theorem no_rule_lost {base : List Char} (hb : GoodBase base) {s0 : Sys} (h0 : Start s0) (hown : OwnProcess s0) (job : Nat → Nat) (tgt : Nat → List Char)
    (hup : ∀ (i : Nat) (t : Thread), s0.threads[i]? = some t → ∀ r, t.update r = addRule r (prefixOf base (job i)) (tgt i)) (hj : ∀ i k, job i = job k → i = k)
    (es : List Event) (i : Nat) (t : Thread) (ht : (run s0 es).threads[i]? = some t) (hf : t.pc = .finished) :
    ∃ f, ruleOf base (run s0 es).file (job i) = some (f, tgt i) := by
  have h := inv_run hown es s0 (inv_start h0)
  have hi := h.logged i t ht (Or.inr hf)
  rw [h.file]
  have key : ∀ (l : List Nat), i ∈ l → ∃ f, ruleOf base (l.foldr (updateOf s0) s0.file) (job i) = some (f, tgt i) := by
    intro l
    induction l with
    | nil => intro h; simp at h
    | cons k l ih =>
      intro hm
      show ∃ f, ruleOf base (updateOf s0 k (l.foldr (updateOf s0) s0.file)) (job i) = _
      unfold updateOf
      cases hk : s0.threads[k]? with
      | none =>
        rcases List.mem_cons.1 hm with e | hm
        · subst e
          obtain ⟨u, hu, _⟩ := h.same i t ht
          rw [hu] at hk; cases hk
        · exact ih hm
      | some u =>
        show ∃ f, ruleOf base (u.update _) (job i) = _
        rw [hup k u hk]
        by_cases e : job i = job k
        · have := hj i k e
          subst this
          exact ⟨_, (rule_added hb _ _ _).1⟩
        · rw [(rule_added hb _ _ _).2 (job i) e]
          rcases List.mem_cons.1 hm with h | h
          · exact absurd (by rw [h]) e
          · exact ih h
  exact key _ hi

/-! ## The file -/

theorem tmp_ne (path random : List Char) : path ++ txt "-tmp-" ++ random ≠ path := by
  intro h
  have := congrArg List.length h
  simp [txt] at this

theorem append_loop (tmp : List Char) : ∀ (pieces : List (List Char)) (f : Files) (x : List Char), f tmp = some x →
    (pieces.map (Op.append tmp)).foldl apply f tmp = some (x ++ pieces.flatten) ∧
    ∀ m, m ≠ tmp → (pieces.map (Op.append tmp)).foldl apply f m = f m
  | [], f, x, h => by simp [h]
  | p :: l, f, x, h => by
    have h' : apply f (.append tmp p) tmp = some (x ++ p) := by
      show (if tmp = tmp then (f tmp).map (· ++ p) else f tmp) = _
      rw [if_pos rfl, h]; rfl
    have ih := append_loop tmp l (apply f (.append tmp p)) (x ++ p) h'
    constructor
    · show (l.map (Op.append tmp)).foldl apply (apply f (.append tmp p)) tmp = _
      rw [ih.1]; simp
    · intro m hm
      show (l.map (Op.append tmp)).foldl apply (apply f (.append tmp p)) m = _
      rw [ih.2 m hm]
      show (if m = tmp then _ else f m) = f m
      rw [if_neg hm]

/-- **C89.** At any point of a save, after a crash too, the file of rules is the old one or the new one, complete; the other files (but the temporary one) are kept; at the end the
temporary file is gone. -/
theorem save_atomic (f : Files) (path random : List Char) (pieces : List (List Char)) :
    (∀ n, ((saveOps path random pieces).take n).foldl apply f path = f path ∨ ((saveOps path random pieces).take n).foldl apply f path = some pieces.flatten) ∧
    (∀ n m, m ≠ path → m ≠ path ++ txt "-tmp-" ++ random → ((saveOps path random pieces).take n).foldl apply f m = f m) ∧
    (saveOps path random pieces).foldl apply f path = some pieces.flatten ∧
    (saveOps path random pieces).foldl apply f (path ++ txt "-tmp-" ++ random) = none := by
  have hne := tmp_ne path random
  unfold saveOps
  dsimp only
  generalize hT : path ++ txt "-tmp-" ++ random = tmp at hne
  have hc : apply f (.create tmp) tmp = some [] := if_pos rfl
  have hco : ∀ m, m ≠ tmp → apply f (.create tmp) m = f m := fun m hm => if_neg hm
  have hA := append_loop tmp pieces (apply f (.create tmp)) [] hc
  have hR : ∀ g : Files, apply g (.replace tmp path) path = g tmp := fun g => if_pos rfl
  have hRo : ∀ (g : Files) m, m ≠ path → m ≠ tmp → apply g (.replace tmp path) m = g m := fun g m h1 h2 => by
    show (if m = path then _ else if m = tmp then _ else g m) = _
    rw [if_neg h1, if_neg h2]
  have hU : ∀ (g : Files) m, m ≠ tmp → apply g (.unlink tmp) m = g m := fun g m h => if_neg h
  have full : ∀ m, (Op.create tmp :: pieces.map (Op.append tmp) ++ [Op.replace tmp path, Op.unlink tmp]).foldl apply f m =
      apply (apply ((pieces.map (Op.append tmp)).foldl apply (apply f (.create tmp))) (.replace tmp path)) (.unlink tmp) m := by
    intro m
    rw [List.cons_append, List.foldl_cons, List.foldl_append]; rfl
  have pre : ∀ n, ∃ k, (Op.create tmp :: pieces.map (Op.append tmp) ++ [Op.replace tmp path, Op.unlink tmp]).take n = [] ∨
      (Op.create tmp :: pieces.map (Op.append tmp) ++ [Op.replace tmp path, Op.unlink tmp]).take n = Op.create tmp :: (pieces.take k).map (Op.append tmp) ∨
      (Op.create tmp :: pieces.map (Op.append tmp) ++ [Op.replace tmp path, Op.unlink tmp]).take n = Op.create tmp :: (pieces.map (Op.append tmp) ++ [Op.replace tmp path]) ∨
      (Op.create tmp :: pieces.map (Op.append tmp) ++ [Op.replace tmp path, Op.unlink tmp]).take n =
        Op.create tmp :: pieces.map (Op.append tmp) ++ [Op.replace tmp path, Op.unlink tmp] := by
    intro n
    cases n with
    | zero => exact ⟨0, Or.inl rfl⟩
    | succ n =>
      rw [List.cons_append, List.take_succ_cons, List.take_append, List.length_map]
      rcases Nat.lt_or_ge pieces.length n with h | h
      · have h1 : (pieces.map (Op.append tmp)).take n = pieces.map (Op.append tmp) := List.take_of_length_le (by simp; omega)
        rw [h1]
        obtain ⟨d, hd⟩ : ∃ d, n - pieces.length = d + 1 := ⟨n - pieces.length - 1, by omega⟩
        rw [hd]
        cases d with
        | zero => exact ⟨0, Or.inr (Or.inr (Or.inl rfl))⟩
        | succ d => exact ⟨0, Or.inr (Or.inr (Or.inr (by simp)))⟩
      · refine ⟨n, Or.inr (Or.inl ?_)⟩
        rw [show n - pieces.length = 0 by omega]
        simp
  have hpart : ∀ k m, m ≠ tmp → (Op.create tmp :: (pieces.take k).map (Op.append tmp)).foldl apply f m = f m := by
    intro k m hm
    rw [List.foldl_cons, (append_loop tmp (pieces.take k) (apply f (.create tmp)) [] hc).2 m hm, hco m hm]
  have hrep : ∀ m, (Op.create tmp :: (pieces.map (Op.append tmp) ++ [Op.replace tmp path])).foldl apply f m =
      apply ((pieces.map (Op.append tmp)).foldl apply (apply f (.create tmp))) (.replace tmp path) m := by
    intro m
    rw [List.foldl_cons, List.foldl_append]; rfl
  refine ⟨?_, ?_, ?_, ?_⟩
  · intro n
    obtain ⟨k, h | h | h | h⟩ := pre n
    · rw [h]; exact Or.inl rfl
    · rw [h]; exact Or.inl (hpart k path (fun e => hne e.symm))
    · rw [h, hrep, hR, hA.1]; exact Or.inr (by simp)
    · rw [h, full, hU _ _ (fun e => hne e.symm), hR, hA.1]; exact Or.inr (by simp)
  · intro n m h1 h2
    obtain ⟨k, h | h | h | h⟩ := pre n
    · rw [h]; rfl
    · rw [h]; exact hpart k m h2
    · rw [h, hrep, hRo _ _ h1 h2, hA.2 m h2, hco m h2]
    · rw [h, full, hU _ _ h2, hRo _ _ h1 h2, hA.2 m h2, hco m h2]
  · rw [full, hU _ _ (fun e => hne e.symm), hR, hA.1]; simp
  · rw [full]; exact if_pos rfl

/-! ## What does not hold -/

/-- A configuration, a job of alice, her file. -/
def cfg : Config := { proxy := txt "traefik", base := txt "/proxy", entry := txt "http://localhost:5000" }
def alice (state : String) : Job := { id := 42, user := txt "alice", directory := txt "/home/alice", state := state }
def world (s : List Char) : World := { exist := fun _ _ => true, readable := fun _ _ => true, content := fun _ _ => .url s }

theorem cfg_base : GoodBase cfg.base := ⟨⟨txt "proxy", by decide +kernel⟩, by decide +kernel⟩

/-- A request, as in the manual. -/
theorem request_example :
    proxy cfg [alice "Running"] (world (txt "http://node-12:8888/lab?token=x")) (txt "alice") 42 (some {}) =
      (.redirect (txt "http://localhost:5000/proxy/42"),
       some { frontends := some [(txt "frontend__2Fproxy_2F42", { backend := txt "backend__2Fproxy_2F42", rule := txt "PathPrefix:/proxy/42" })]
              backends := some [(txt "backend__2Fproxy_2F42", txt "http://node-12:8888")] }) ∧
    proxy cfg [alice "Running"] (world (txt "http://node-12:8888")) (txt "bob") 42 (some {}) = (.error 403, some {}) ∧
    proxy cfg [alice "Running"] (world (txt "https://node-12:8888")) (txt "alice") 42 (some {}) = (.error 404, some {}) ∧
    proxy cfg [alice "Running"] (world (txt "node-12")) (txt "alice") 42 (some {}) = (.error 404, some {}) ∧
    proxy cfg [] (world (txt "http://node-12:8888")) (txt "alice") 42 (some {}) = (.error 404, some {}) := by decide +kernel

/-- **C89 does not hold.** The paths of a job without rule lead to another job: with the rule of the job 1 only, `/proxy/12/lab` leads to the server of the job 1. -/
theorem other_job_violated (t : List Char) :
    Made cfg.base (addRule {} (prefixOf cfg.base 1) t) ∧ ruleOf cfg.base (addRule {} (prefixOf cfg.base 1) t) 12 = none ∧
    Below cfg.base 12 (txt "/proxy/12/lab") ∧ Led (addRule {} (prefixOf cfg.base 1) t) (txt "/proxy/12/lab") t := by
  refine ⟨.add _ _ _ .empty, ?_, Or.inr ⟨txt "lab", by decide +kernel⟩, ?_⟩
  · rw [(rule_added cfg_base {} 1 t).2 12 (by decide)]; rfl
  · refine ⟨{ backend := backendOf (prefixOf cfg.base 1), rule := txt "PathPrefix:" ++ prefixOf cfg.base 1 }, ⟨⟨_, List.mem_singleton.2 rfl⟩, _, rfl, ?_⟩, ?_, List.mem_singleton.2 rfl⟩
    · exact ⟨txt "2/lab", by decide +kernel⟩
    · rintro g ⟨⟨k, hk⟩, _⟩
      have := (Prod.mk.inj (List.mem_singleton.1 hk)).2
      rw [this]; exact Nat.le_refl _

/-- **C89 does not hold.** The target can be any host: the owner of a job makes the proxy lead to a host that is not one of its nodes. -/
theorem any_host_violated {n : List Char} (hn : ∀ c ∈ n, c ≠ '/' ∧ c ≠ '?' ∧ c ≠ '#' ∧ c ≠ '[' ∧ c ≠ ']' ∧ 32 < c.toNat) (h : n ≠ []) (r : Rules) (st : String) :
    proxy cfg [alice st] (world (txt "http://" ++ n ++ [])) (txt "alice") 42 (some r) =
      (.redirect (cfg.entry ++ prefixOf cfg.base 42), some (addRule r (prefixOf cfg.base 42) (txt "http://" ++ n))) :=
  request_served (j := alice st) rfl rfl (Or.inl rfl) rfl rfl rfl (urlparse_http hn (Or.inl rfl)) h

/-- **C89 does not hold.** The rule of a job that is over, deleted by the cleaner, can be made again. -/
theorem ended_job_violated (r : Rules) (hr : Made cfg.base r) :
    ∃ r1, clean cfg.base [alice "Terminated"] (some r) = some (some r1) ∧ ruleOf cfg.base r1 42 = none ∧
      ∃ r2, proxy cfg [alice "Terminated"] (world (txt "http://node-12:8888")) (txt "alice") 42 (some r1) =
          (.redirect (cfg.entry ++ prefixOf cfg.base 42), some r2) ∧ ∃ f, ruleOf cfg.base r2 42 = some (f, txt "http://node-12:8888") := by
  obtain ⟨r1, e, hm, hx⟩ := clean_exact cfg_base hr [alice "Terminated"]
  refine ⟨r1, e, (hx 42).1 ⟨_, List.mem_singleton.2 rfl, rfl, Or.inr rfl⟩, addRule r1 (prefixOf cfg.base 42) (txt "http://node-12:8888"), ?_, _,
    (rule_added cfg_base r1 42 _).1⟩
  have := any_host_violated (n := txt "node-12:8888") (by decide +kernel) (by decide) r1 "Terminated"
  rw [List.append_nil] at this
  exact this

/-- **C89 does not hold.** The rule of a job that is no more in the database is never deleted. -/
theorem purged_job_violated {r : Rules} (hr : Made cfg.base r) (id : Nat) :
    ∀ dbs : List (List Job), (∀ db ∈ dbs, ∀ j ∈ db, j.id ≠ id) →
      ∃ r', dbs.foldl (fun f db => f.bind (clean cfg.base db)) (some (some r)) = some (some r') ∧ ruleOf cfg.base r' id = ruleOf cfg.base r id := by
  intro dbs
  induction dbs generalizing r with
  | nil => intro _; exact ⟨r, rfl, rfl⟩
  | cons db dbs ih =>
    intro h
    obtain ⟨r1, e, hm, hx⟩ := clean_exact cfg_base hr db
    obtain ⟨r', e', hr'⟩ := ih hm (fun d hd => h d (List.mem_cons_of_mem _ hd))
    refine ⟨r', ?_, ?_⟩
    · rw [List.foldl_cons]
      show dbs.foldl _ (clean cfg.base db (some r)) = _
      rw [e]; exact e'
    · rw [hr', (hx id).2 (fun j hj ej => absurd ej (h db List.mem_cons_self j hj))]

/-- **C89 does not hold.** One rule that is not the one of a job (made by hand for another service) ends the cleaner: nothing is cleaned. -/
theorem foreign_rule_violated (base : List Char) (db : List Job) (f : Front) (fs gs : List (List Char × Front)) (bs : Option (List (List Char × List Char))) :
    clean base db (some { frontends := some (fs ++ (txt "frontend_oarapi", f) :: gs), backends := bs }) = none := by
  have : keyIds (fs ++ (txt "frontend_oarapi", f) :: gs) = none := by
    induction fs with
    | nil =>
      show (match (keyJob (txt "frontend_oarapi")).bind pyInt, keyIds gs with | some i, some l => some (i :: l) | _, _ => none) = none
      rw [show (keyJob (txt "frontend_oarapi")).bind pyInt = none by decide +kernel]
    | cons p fs ih =>
      show (match (keyJob p.1).bind pyInt, keyIds (fs ++ (txt "frontend_oarapi", f) :: gs) with | some i, some l => some (i :: l) | _, _ => none) = none
      rw [ih]
      cases (keyJob p.1).bind pyInt <;> rfl
  unfold clean
  dsimp only
  rw [this]

/-- **C89 does not hold.** The file of rules is never created: without it every request is an error, and there is still no file after it. -/
theorem no_file_violated (c : Config) : ∀ qs : List (List Job × World × List Char × Nat),
    qs.foldl (fun f q => (proxy c q.1 q.2.1 q.2.2.1 q.2.2.2 f).2) none = none ∧
    ∀ q ∈ qs, ∃ n, proxy c q.1 q.2.1 q.2.2.1 q.2.2.2 none = (.error n, none) := by
  have one : ∀ q : List Job × World × List Char × Nat, ∃ n, proxy c q.1 q.2.1 q.2.2.1 q.2.2.2 none = (.error n, none) := by
    intro q
    unfold proxy
    cases target c q.1 q.2.1 q.2.2.1 q.2.2.2 with
    | error n => exact ⟨n, rfl⟩
    | ok t => exact ⟨500, rfl⟩
  intro qs
  refine ⟨?_, fun q _ => one q⟩
  induction qs with
  | nil => rfl
  | cons q qs ih =>
    obtain ⟨n, e⟩ := one q
    rw [List.foldl_cons, e]; exact ih

/-- Two requests of the same process of the API, for the jobs 1 and 2. -/
def two (p q : Nat) : Sys :=
  { owner := none, file := {}, log := []
    threads := [{ proc := p, update := fun r => addRule r (prefixOf cfg.base 1) (txt "http://a"), pc := .waiting },
      { proc := q, update := fun r => addRule r (prefixOf cfg.base 2) (txt "http://b"), pc := .waiting }] }

/-- The two requests, turn by turn. -/
def turns : List Event := [.step 0, .step 1, .step 0, .step 1, .step 0, .step 1, .step 0, .step 1]

/-- **C89 does not hold.** `lockf` does not separate the threads of a process: two requests handled by the same process both answer, and the rule of the first is lost. -/
theorem same_process_violated :
    Start (two 7 7) ∧ ((run (two 7 7) turns).threads.map (·.pc)) = [.finished, .finished] ∧ ruleOf cfg.base (run (two 7 7) turns).file 1 = none ∧
    (ruleOf cfg.base (run (two 7 7) turns).file 2).isSome = true := by
  refine ⟨⟨rfl, rfl, by simp [two]⟩, ?_, ?_, ?_⟩ <;> decide +kernel

/-- The same requests in two processes: the second waits, no rule is lost. -/
theorem two_processes_example :
    ((run (two 7 8) (turns ++ [.step 1, .step 1, .step 1, .step 1])).threads.map (·.pc)) = [.finished, .finished] ∧
    (ruleOf cfg.base (run (two 7 8) (turns ++ [.step 1, .step 1, .step 1, .step 1])).file 1).isSome = true ∧
    (ruleOf cfg.base (run (two 7 8) (turns ++ [.step 1, .step 1, .step 1, .step 1])).file 2).isSome = true := by
  refine ⟨?_, ?_, ?_⟩ <;> decide +kernel

/-- The hypotheses of `no_rule_lost` can be met. -/
theorem no_rule_lost_example (es : List Event) (i : Nat) (t : Thread) (ht : (run (two 7 8) es).threads[i]? = some t) (hf : t.pc = .finished) :
    ∃ f, ruleOf cfg.base (run (two 7 8) es).file (i + 1) = some (f, if i = 0 then txt "http://a" else txt "http://b") := by
  refine no_rule_lost cfg_base ⟨rfl, rfl, by simp [two]⟩ ?_ (fun i => i + 1) (fun i => if i = 0 then txt "http://a" else txt "http://b") ?_ (fun i k h => by omega) es i t ht hf
  · intro i j t u h1 h2 e
    match i, j with
    | 0, 0 => rfl
    | 1, 1 => rfl
    | 0, 1 =>
      have h1 := Option.some.inj h1; have h2 := Option.some.inj h2
      subst h1; subst h2; simp at e
    | 1, 0 =>
      have h1 := Option.some.inj h1; have h2 := Option.some.inj h2
      subst h1; subst h2; simp at e
    | n + 2, _ => simp [two] at h1
    | _, n + 2 => simp [two] at h2
  · intro i t h r
    match i with
    | 0 => have h := Option.some.inj h; subst h; rfl
    | 1 => have h := Option.some.inj h; subst h; rfl
    | n + 2 => simp [two] at h

/-- Letters and digits are kept in the names of the rules. -/
theorem escape_plain (s : List Char) (h : ∀ c ∈ s, c.isAlphanum = true) : escape s = s := by
  induction s with
  | nil => rfl
  | cons c r ih =>
    have hc : alnum c = true := by
      have := h c (List.mem_cons_self ..)
      simp only [Char.isAlphanum, Char.isAlpha, Char.isUpper, Char.isLower, Char.isDigit, Bool.or_eq_true, Bool.and_eq_true, decide_eq_true_eq] at this
      unfold alnum
      simp only [Char.isDigit, Bool.or_eq_true, Bool.and_eq_true, decide_eq_true_eq]
      rcases this with (⟨h1, h2⟩ | ⟨h1, h2⟩) | ⟨h1, h2⟩
      · exact Or.inr ⟨h1, h2⟩
      · exact Or.inl (Or.inr ⟨h1, h2⟩)
      · exact Or.inl (Or.inl ⟨h1, h2⟩)
    show (if alnum c then [c] else escapeChar c) ++ escape r = _
    rw [if_pos hc, ih (fun x hx => h x (List.mem_cons_of_mem _ hx))]
    rfl

/-- **The file read is the one of the job**: the file named in the manual, and two jobs of the same directory have two files. -/
theorem file_exact (j : Job) : Spec.FileOf j (proxyFile j) ∧ ∀ j' : Job, j'.directory = j.directory → proxyFile j' = proxyFile j → j'.id = j.id := by
  constructor
  · unfold Spec.FileOf proxyFile
    have : str (j.id : Int) = digits j.id := by
      unfold str
      rw [if_neg (by omega)]
      rfl
    rw [this]
  · intro j' hd h
    unfold proxyFile at h
    rw [hd] at h
    have h1 := List.append_cancel_right h
    rw [List.append_assoc, List.append_assoc] at h1
    have h2 := List.append_cancel_left (List.append_cancel_left h1)
    have h3 := (digits_spec j'.id).2.2.1
    rw [h2, (digits_spec j.id).2.2.1] at h3
    exact h3.symm

end Oar.ApiProxy
