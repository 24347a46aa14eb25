import Verif.NodeSettingSpec
import Verif.ToolsProps
import Verif.CliProps

/-!
# Properties of oarnodesetting (C82)
-/

namespace Oar.NodeSetting

open Oar.Res Oar.Tools
open Oar.Cli (Ret exitValue exitLoop)

/-! ## Texts -/

theorem str_chars (n : Int) : ∀ c ∈ str n, c.isDigit = true ∨ c = '-' := by
  intro c hc
  unfold str at hc
  have hd := (digits_spec n.natAbs).2.1
  rw [List.all_eq_true] at hd
  split at hc
  · rcases List.mem_cons.1 hc with h | h
    · exact Or.inr h
    · exact Or.inl (hd c h)
  · exact Or.inl (hd c hc)

theorem str_plain (n : Int) : ∀ c ∈ str n, c ≠ '=' := by
  intro c hc he
  subst he
  rcases str_chars n _ hc with h | h
  · exact absurd h (by decide)
  · exact absurd h (by decide)

theorem str_inj {m n : Int} (h : str m = str n) : m = n := by
  have h1 := pyInt_str m
  rw [h, pyInt_str] at h1
  exact (Option.some.inj h1).symm

theorem intText_inj {m n : Int} (h : intText m = intText n) : m = n := by
  unfold intText at h
  exact str_inj (String.ofList_injective h)

theorem intText_zero : intText 0 = "0" := by decide

theorem norm_int (p : String) (n : Int) : norm p (intText n) = some (intText n) := by
  unfold norm intText
  split
  · rw [String.toList_ofList, pyInt_str]; rfl
  · rfl

/-- A text `name=value`, where the name does not begin with a space and there is no other sign, is understood so. -/
theorem parse_pair (n v : String) (hn : ∀ c ∈ n.toList, c ≠ '=') (hv : ∀ c ∈ v.toList, c ≠ '=') (hs : ∀ c, n.toList.head? = some c → c.isWhitespace = false) :
    parseProp (n ++ "=" ++ v) = some (n, v) := by
  have hl : ((n ++ "=" ++ v).toList).dropWhile Char.isWhitespace = n.toList ++ '=' :: v.toList := by
    rw [String.toList_append, String.toList_append, show "=".toList = ['='] from rfl, List.append_assoc, List.singleton_append]
    cases hx : n.toList with
    | nil => rw [List.nil_append, List.dropWhile_cons_of_neg (by decide)]
    | cons c l => rw [List.cons_append, List.dropWhile_cons_of_neg (by rw [hs c (by rw [hx]; rfl)]; decide)]
  unfold parseProp
  rw [hl, split_cons_sep _ _ _ hn, split_nil_sep _ _ hv]
  show some (String.ofList n.toList, String.ofList v.toList) = _
  rw [String.ofList_toList, String.ofList_toList]


/-! ## Properties -/

theorem setCol_same (r : Res) (p v : String) (hp : p ≠ "id") (h : col r p = some v) : setCol r p v = r := by
  unfold col at h
  unfold setCol
  rw [if_neg hp] at h ⊢
  by_cases h1 : p = "network_address"
  · rw [if_pos h1] at h ⊢
    rw [← Option.some.inj h]
  · rw [if_neg h1] at h ⊢
    by_cases h2 : p = "type"
    · rw [if_pos h2] at h ⊢
      rw [← Option.some.inj h]
    · rw [if_neg h2] at h ⊢
      have : (fun q => if q = p then some v else r.prop q) = r.prop := by
        funext q
        split
        · rename_i hq; rw [hq, h]
        · rfl
      rw [this]

theorem setCol_system (r : Res) (p v : String) (hp : p ≠ "id") : SameSystem r (setCol r p v) := by
  unfold setCol
  rw [if_neg hp]
  split
  · exact ⟨rfl, rfl, rfl, rfl, rfl⟩
  · split <;> exact ⟨rfl, rfl, rfl, rfl, rfl⟩

theorem col_setCol (r : Res) (p v q : String) (hp : p ≠ "id") : col (setCol r p v) q = if q = p then some v else col r q := by
  unfold setCol
  rw [if_neg hp]
  by_cases h1 : p = "network_address"
  · rw [if_pos h1]
    unfold col
    by_cases hq : q = p
    · rw [if_pos hq, hq, if_neg hp, if_pos h1]
    · rw [if_neg hq]
      by_cases hi : q = "id"
      · rw [if_pos hi, if_pos hi]
      · rw [if_neg hi, if_neg hi]
        have hn : ¬ q = "network_address" := fun h => hq (h.trans h1.symm)
        rw [if_neg hn, if_neg hn]
  · rw [if_neg h1]
    by_cases h2 : p = "type"
    · rw [if_pos h2]
      unfold col
      by_cases hq : q = p
      · rw [if_pos hq, hq, if_neg hp, if_neg h1, if_pos h2]
      · rw [if_neg hq]
        by_cases hi : q = "id"
        · rw [if_pos hi, if_pos hi]
        · rw [if_neg hi, if_neg hi]
          by_cases hn : q = "network_address"
          · rw [if_pos hn, if_pos hn]
          · rw [if_neg hn, if_neg hn, if_neg (fun h => hq (h.trans h2.symm)), if_neg (fun h => hq (h.trans h2.symm))]
    · rw [if_neg h2]
      unfold col
      by_cases hq : q = p
      · rw [if_pos hq, hq, if_neg hp, if_neg h1, if_neg h2]
        show (if p = p then some v else r.prop p) = _
        rw [if_pos rfl]
      · rw [if_neg hq]
        show (if q = "id" then some (intText r.id) else if q = "network_address" then some r.host else if q = "type" then some r.rtype
          else (if q = p then some v else r.prop q)) = _
        rw [if_neg hq]

theorem nodup_unique {l : List Res} (h : (l.map Res.id).Nodup) : ∀ a ∈ l, ∀ b ∈ l, a.id = b.id → a = b := by
  induction l with
  | nil => intro a ha; cases ha
  | cons x xs ih =>
    rw [List.map_cons, List.nodup_cons] at h
    intro a ha b hb he
    rcases List.mem_cons.1 ha with ha1 | ha <;> rcases List.mem_cons.1 hb with hb1 | hb
    · rw [ha1, hb1]
    · exact absurd (List.mem_map.2 ⟨b, hb, by rw [← he, ha1]⟩) h.1
    · exact absurd (List.mem_map.2 ⟨a, ha, by rw [he, hb1]⟩) h.1
    · exact ih h.2 a ha b hb he

theorem mem_targets {w : RDB} {sel : Res → Bool} {p v : String} (hu : (w.res.map Res.id).Nodup) {r : Res} (hr : r ∈ w.res) :
    r.id ∈ targets w sel p v ↔ sel r = true ∧ col r p ≠ some v := by
  unfold targets
  constructor
  · intro h
    obtain ⟨x, hx, he⟩ := List.mem_map.1 h
    obtain ⟨hx1, hx2⟩ := List.mem_filter.1 hx
    have := nodup_unique hu x hx1 r hr he
    subst this
    rw [Bool.and_eq_true, decide_eq_true_eq] at hx2
    exact hx2
  · intro h
    exact List.mem_map.2 ⟨r, List.mem_filter.2 ⟨hr, by rw [Bool.and_eq_true, decide_eq_true_eq]; exact h⟩, rfl⟩

theorem setProperty_ok (e : World) (w : RDB) (sel : Res → Bool) (p v nv : String) (hu : (w.res.map Res.id).Nodup) (hc : p ∈ e.cols)
    (hp : p ≠ "id") (hv : norm p v = some nv) :
    ∃ w', setProperty e w sel p v = some w' ∧ w'.res = w.res.map (fun r => if sel r = true then setCol r p nv else r) ∧ SameRest w w' := by
  unfold setProperty
  rw [if_neg (fun h => h hc), hv]
  dsimp only
  by_cases ht : targets w sel p nv = []
  · rw [if_pos ht]
    refine ⟨w, rfl, ?_, rfl, rfl, rfl⟩
    have : ∀ r ∈ w.res, (if sel r = true then setCol r p nv else r) = r := by
      intro r hr
      split
      · rename_i hs
        apply setCol_same r p nv hp
        apply Classical.byContradiction
        intro hn
        have := (mem_targets (p := p) (v := nv) hu hr).2 ⟨hs, hn⟩
        rw [ht] at this
        cases this
      · rfl
    rw [List.map_congr_left this, List.map_id']
  · rw [if_neg ht, if_neg (fun h => hp h.1)]
    refine ⟨_, rfl, ?_, rfl, rfl, rfl⟩
    show w.res.map (fun r => if decide (r.id ∈ targets w sel p nv) = true then setCol r p nv else r) = _
    apply List.map_congr_left
    intro r hr
    by_cases hm : r.id ∈ targets w sel p nv
    · rw [if_pos (decide_eq_true hm), if_pos ((mem_targets hu hr).1 hm).1]
    · rw [if_neg (by simpa using hm)]
      by_cases hs : sel r = true
      · rw [if_pos hs]
        symm
        apply setCol_same r p nv hp
        apply Classical.byContradiction
        intro hn
        exact hm ((mem_targets hu hr).2 ⟨hs, hn⟩)
      · rw [if_neg hs]

/-- The row once the pairs are written. -/
def applyAll (l : List (String × String)) (r : Res) : Res := l.foldl (fun r x => setCol r x.1 ((norm x.1 x.2).getD "")) r

theorem applyAll_spec : ∀ (l : List (String × String)) (r : Res), (∀ x ∈ l, x.1 ≠ "id" ∧ (norm x.1 x.2).isSome = true) →
    SameSystem r (applyAll l r) ∧ ∀ p, col (applyAll l r) p = lastOf l p (col r p) := by
  intro l
  induction l with
  | nil => intro r _; exact ⟨⟨rfl, rfl, rfl, rfl, rfl⟩, fun p => rfl⟩
  | cons x xs ih =>
    intro r h
    obtain ⟨hx, hs⟩ := h x (List.mem_cons_self)
    obtain ⟨nv, hnv⟩ := Option.isSome_iff_exists.1 hs
    have ih' := ih (setCol r x.1 ((norm x.1 x.2).getD "")) (fun y hy => h y (List.mem_cons_of_mem _ hy))
    have e : applyAll (x :: xs) r = applyAll xs (setCol r x.1 ((norm x.1 x.2).getD "")) := rfl
    rw [e]
    obtain ⟨a1, a2, a3, a4, a5⟩ := ih'.1
    obtain ⟨b1, b2, b3, b4, b5⟩ := setCol_system r x.1 ((norm x.1 x.2).getD "") hx
    refine ⟨⟨a1.trans b1, a2.trans b2, a3.trans b3, a4.trans b4, a5.trans b5⟩, ?_⟩
    intro p
    rw [ih'.2 p, col_setCol _ _ _ _ hx]
    unfold lastOf
    rw [List.reverse_cons, List.find?_append]
    cases hf : xs.reverse.find? (fun x => x.1 == p) with
    | some y => rfl
    | none =>
      rw [Option.none_or]
      by_cases hp : p = x.1
      · rw [if_pos hp, List.find?_cons_of_pos (by rw [hp]; exact beq_self_eq_true _)]
        show some _ = norm x.1 x.2
        rw [hnv]; rfl
      · rw [if_neg hp, List.find?_cons_of_neg (by simpa using fun h => hp h.symm), List.find?_nil]

theorem written_mem {e : World} {ps : List String} (h : ∀ p ∈ ps, Refused p ∨ Storable e p) :
    ∀ x ∈ written ps, x.1 ≠ "id" ∧ (norm x.1 x.2).isSome = true := by
  intro x hx
  obtain ⟨s, hs, hx⟩ := List.mem_filterMap.1 hx
  obtain ⟨hx1, hx2⟩ := Option.filter_eq_some_iff.1 hx
  have hx3 := of_decide_eq_true hx2
  rcases h s hs with (h1 | ⟨n, v, h1, h2⟩) | ⟨n, v, h1, h2, h3, h4, h5⟩
  · rw [h1] at hx1; cases hx1
  · rw [h1] at hx1
    have := Option.some.inj hx1
    subst this
    exact absurd h2 hx3
  · rw [h1] at hx1
    have := Option.some.inj hx1
    subst this
    exact ⟨h4, h5⟩

theorem props_loop (e : World) (sel : Res → Bool) :
    ∀ (ps : List String) (s : St), s.raised = false → (s.w.res.map Res.id).Nodup → (∀ p ∈ ps, Refused p ∨ Storable e p) →
    (∀ x ∈ written ps, ∀ r v, sel (setCol r x.1 v) = sel r) →
    (setProperties e sel s ps).raised = false ∧ (setProperties e sel s ps).sent = s.sent ∧ (setProperties e sel s ps).waited = s.waited ∧
    (∃ ex, (setProperties e sel s ps).exits = s.exits ++ ex ∧ ((∀ x ∈ ex, x = 0) ↔ ∀ p ∈ ps, ¬ Refused p)) ∧
    (setProperties e sel s ps).w.res = s.w.res.map (fun r => if sel r = true then applyAll (written ps) r else r) ∧
    SameRest s.w (setProperties e sel s ps).w := by
  intro ps
  induction ps with
  | nil =>
    intro s hr _ _ _
    refine ⟨hr, rfl, rfl, ⟨[], (List.append_nil _).symm, by simp⟩, ?_, rfl, rfl, rfl⟩
    have : ∀ r ∈ s.w.res, (if sel r = true then applyAll (written []) r else r) = r := by intro r _; split <;> rfl
    rw [List.map_congr_left this, List.map_id']; rfl
  | cons p ps ih =>
    intro s hr hu hok hnet
    have hok' := fun q hq => hok q (List.mem_cons_of_mem p hq)
    have e1 : setProperties e sel s (p :: ps) = setProperties e sel (propStep e sel s p) ps := rfl
    rw [e1]
    have hnet' : ∀ x ∈ written ps, ∀ r v, sel (setCol r x.1 v) = sel r := by
      intro x hx
      apply hnet x
      unfold written at hx ⊢
      rw [List.filterMap_cons]
      split
      · exact hx
      · exact List.mem_cons_of_mem _ hx
    have href : ∀ c : Int, c ≠ 0 → propStep e sel s p = s.say [0, c] → Refused p → written (p :: ps) = written ps →
      (setProperties e sel (propStep e sel s p) ps).raised = false ∧ (setProperties e sel (propStep e sel s p) ps).sent = s.sent ∧
      (setProperties e sel (propStep e sel s p) ps).waited = s.waited ∧
      (∃ ex, (setProperties e sel (propStep e sel s p) ps).exits = s.exits ++ ex ∧ ((∀ x ∈ ex, x = 0) ↔ ∀ q ∈ p :: ps, ¬ Refused q)) ∧
      (setProperties e sel (propStep e sel s p) ps).w.res = s.w.res.map (fun r => if sel r = true then applyAll (written (p :: ps)) r else r) ∧
      SameRest s.w (setProperties e sel (propStep e sel s p) ps).w := by
      intro c hc h1 h2 h3
      rw [h1]
      obtain ⟨g1, g2, g3, ⟨ex, g4, g5⟩, g6, g7⟩ := ih (s.say [0, c]) hr hu hok' hnet'
      refine ⟨g1, g2, g3, ⟨[0, c] ++ ex, ?_, ?_⟩, ?_, g7⟩
      · rw [g4]; show (s.exits ++ [0, c]) ++ ex = _; rw [List.append_assoc]
      · constructor
        · intro h; exact absurd (h c (by simp)) hc
        · intro h; exact absurd h2 (h p List.mem_cons_self)
      · rw [g6, h3]; rfl
    rcases hok p List.mem_cons_self with (h1 | ⟨n, v, h1, h2⟩) | ⟨n, v, h1, h2, h3, h4, h5⟩
    · refine href 10 (by decide) ?_ (Or.inl h1) ?_
      · unfold propStep; rw [if_neg (by rw [hr]; decide), h1]
      · unfold written; rw [List.filterMap_cons, h1]; rfl
    · refine href 8 (by decide) ?_ (Or.inr ⟨n, v, h1, h2⟩) ?_
      · unfold propStep; rw [if_neg (by rw [hr]; decide), h1]; dsimp only; rw [if_pos h2]
      · unfold written; rw [List.filterMap_cons, h1, Option.filter_some, if_neg (by simpa using h2)]
    · obtain ⟨nv, hnv⟩ := Option.isSome_iff_exists.1 h5
      obtain ⟨w', k1, k2, k3⟩ := setProperty_ok e s.w sel n v nv hu h3 h4 hnv
      have hst : propStep e sel s p = { s.say [0, 0] with w := w' } := by
        unfold propStep; rw [if_neg (by rw [hr]; decide), h1]; dsimp only; rw [if_neg h2, k1]
      rw [hst]
      have hw : written (p :: ps) = (n, v) :: written ps := by
        unfold written; rw [List.filterMap_cons, h1, Option.filter_some, if_pos (by simpa using h2)]
      have hids : w'.res.map Res.id = s.w.res.map Res.id := by
        rw [k2, List.map_map]
        apply List.map_congr_left
        intro r _
        show (if sel r = true then setCol r n nv else r).id = r.id
        split
        · exact (setCol_system r n nv h4).1
        · rfl
      obtain ⟨g1, g2, g3, ⟨ex, g4, g5⟩, g6, g7⟩ := ih { s.say [0, 0] with w := w' } hr (by show (w'.res.map Res.id).Nodup; rw [hids]; exact hu) hok' hnet'
      have hss : ∀ r, sel (setCol r n nv) = sel r := fun r => hnet (n, v) (by rw [hw]; exact List.mem_cons_self) r nv
      refine ⟨g1, g2, g3, ⟨[0, 0] ++ ex, ?_, ?_⟩, ?_, ?_⟩
      · rw [g4]; show (s.exits ++ [0, 0]) ++ ex = _; rw [List.append_assoc]
      · have hnr : ¬ Refused p := by
          rintro (h | ⟨n', v', h, h'⟩)
          · rw [h1] at h; cases h
          · rw [h1] at h
            cases Option.some.inj h
            exact h2 h'
        rw [show (∀ x ∈ [0, 0] ++ ex, x = 0) ↔ (∀ x ∈ ex, x = 0) by simp, g5]
        constructor
        · intro h q hq
          rcases List.mem_cons.1 hq with rfl | hq
          · exact hnr
          · exact h q hq
        · intro h q hq; exact h q (List.mem_cons_of_mem _ hq)
      · rw [g6]
        show w'.res.map _ = _
        rw [k2, List.map_map]
        apply List.map_congr_left
        intro r _
        show (if sel (if sel r = true then setCol r n nv else r) = true then applyAll (written ps) (if sel r = true then setCol r n nv else r) else
          (if sel r = true then setCol r n nv else r)) = _
        by_cases hs : sel r = true
        · rw [if_pos hs, if_pos hs, if_pos (by rw [hss r]; exact hs), hw]
          show _ = applyAll (written ps) (setCol r n ((norm n v).getD ""))
          rw [hnv]; rfl
        · rw [if_neg hs, if_neg hs, if_neg hs]
      · obtain ⟨q1, q2, q3⟩ := g7
        obtain ⟨q4, q5, q6⟩ := k3
        exact ⟨q1.trans q4, q2.trans q5, q3.trans q6⟩

theorem byIds_setCol (ids : List Nat) (r : Res) (p v : String) (hp : p ≠ "id") : byIds ids (setCol r p v) = byIds ids r := by
  unfold byIds; rw [(setCol_system r p v hp).1]

theorem byHosts_setCol (hosts : List String) (r : Res) (p v : String) (hp : p ≠ "id") (hn : p ≠ "network_address") :
    byHosts hosts (setCol r p v) = byHosts hosts r := by
  have h : (setCol r p v).host = r.host := by
    unfold setCol
    rw [if_neg hp, if_neg hn]
    split <;> rfl
  unfold byHosts; rw [h]

theorem finish_props (e : World) (a : Args) (ids : List Nat) (hosts tags : List String) (s : St) (hr : s.raised = false)
    (hu : (s.w.res.map Res.id).Nodup) (hne : allProps a ≠ []) (hok : ∀ p ∈ allProps a, Refused p ∨ Storable e p)
    (hnet : ∀ x ∈ written (allProps a), ∀ r v, (if ids ≠ [] then byIds ids else byHosts hosts) (setCol r x.1 v) = (if ids ≠ [] then byIds ids else byHosts hosts) r) :
    (finish e a ids hosts tags s).raised = false ∧ (finish e a ids hosts tags s).sent = s.sent ++ "Term" :: tags ∧
    (finish e a ids hosts tags s).waited = s.waited ∧ (finish e a ids hosts tags s).ret.final = 0 ∧
    (∃ ex, (finish e a ids hosts tags s).ret.exits = s.exits ++ ex ∧ ((∀ x ∈ ex, x = 0) ↔ ∀ p ∈ allProps a, ¬ Refused p)) ∧
    (finish e a ids hosts tags s).w.res = s.w.res.map (fun r => if (if ids ≠ [] then byIds ids else byHosts hosts) r = true then applyAll (written (allProps a)) r else r) ∧
    SameRest s.w (finish e a ids hosts tags s).w := by
  obtain ⟨g1, g2, g3, ⟨ex, g4, g5⟩, g6, g7⟩ := props_loop e (if ids ≠ [] then byIds ids else byHosts hosts) (allProps a) s hr hu hok hnet
  have ht : ∀ (t : List String) (s : St), t.foldl St.tell s = { s with sent := s.sent ++ t } := by
    intro t
    induction t with
    | nil => intro s; show s = _; rw [List.append_nil]
    | cons x xs ih =>
      intro s
      rw [List.foldl_cons, ih]
      show ({ s with sent := (s.sent ++ [x]) ++ xs } : St) = _
      rw [List.append_assoc]; rfl
  have h1 : (if s.raised = true ∨ allProps a = [] then s
      else if (setProperties e (if ids ≠ [] then byIds ids else byHosts hosts) s (allProps a)).raised = true
        then setProperties e (if ids ≠ [] then byIds ids else byHosts hosts) s (allProps a)
        else (setProperties e (if ids ≠ [] then byIds ids else byHosts hosts) s (allProps a)).tell "Term")
      = (setProperties e (if ids ≠ [] then byIds ids else byHosts hosts) s (allProps a)).tell "Term" := by
    rw [if_neg (by rw [hr]; simp [hne]), if_neg (by rw [g1]; decide)]
  have h2 : finish e a ids hosts tags s =
      (let s2 := tags.foldl St.tell ((setProperties e (if ids ≠ [] then byIds ids else byHosts hosts) s (allProps a)).tell "Term")
       ⟨s2.w, ⟨s2.exits, 0⟩, s2.sent, s2.waited, s2.raised⟩) := by
    unfold finish
    dsimp only
    rw [h1, if_neg (by show ¬ ((setProperties _ _ _ _).raised = true); rw [g1]; decide)]
  rw [h2, ht]
  refine ⟨g1, ?_, g3, rfl, ⟨ex, g4, g5⟩, g6, g7⟩
  show ((setProperties _ _ _ _).sent ++ ["Term"]) ++ tags = _
  rw [g2, List.append_assoc]; rfl

/-- **C82, properties of resources given by identifiers.** When every property is either refused or storable, the command does not raise; each
resource selected has for each column the last value given for it, its other columns are kept, the other resources and tables are kept; the scheduler
is notified; the exit status is 0 exactly when no property was refused. -/
theorem properties_by_ids (e : World) (w : RDB) (ids : List Nat) (ps : List String) (hi : ids ≠ []) (hne : ps ≠ [])
    (hu : (w.res.map Res.id).Nodup) (hok : ∀ p ∈ ps, Refused p ∨ Storable e p) :
    ∃ f, (run e { resources := ids, props := ps } w).w.res = w.res.map f ∧ SameRest w (run e { resources := ids, props := ps } w).w ∧
    (∀ r ∈ w.res, (r.id ∉ ids → f r = r) ∧ (r.id ∈ ids → SameSystem r (f r) ∧ ∀ p, col (f r) p = lastOf (written ps) p (col r p))) ∧
    (run e { resources := ids, props := ps } w).raised = false ∧ (run e { resources := ids, props := ps } w).sent = ["Term"] ∧
    ((exitValue (run e { resources := ids, props := ps } w).ret).1 = 0 ↔ ∀ p ∈ ps, ¬ Refused p) := by
  have hps : ps.isEmpty = false := by cases ps <;> simp_all
  have hrun : run e { resources := ids, props := ps } w = finish e { resources := ids, props := ps } ids [e.localHost] [] { w := w } := by
    unfold run badArgs change
    simp [hps, hi]
  have ha : allProps { resources := ids, props := ps } = ps := List.append_nil _
  obtain ⟨g1, g2, g3, g4, ⟨ex, g5, g6⟩, g7, g8⟩ := finish_props e { resources := ids, props := ps } ids [e.localHost] [] { w := w } rfl hu
    (by rw [ha]; exact hne) (by rw [ha]; exact hok) (by
      rw [ha, if_pos hi]
      intro x hx r v
      exact byIds_setCol ids r x.1 v (written_mem hok x hx).1)
  rw [ha] at g6 g7
  rw [hrun]
  refine ⟨_, g7, g8, ?_, g1, g2, ?_⟩
  · intro r _
    rw [if_pos hi]
    constructor
    · intro h; rw [if_neg (by unfold byIds; simpa using h)]
    · intro h
      rw [if_pos (by unfold byIds; simpa using h)]
      exact applyAll_spec _ r (written_mem hok)
  · have : (finish e { resources := ids, props := ps } ids [e.localHost] [] { w := w }).ret = ⟨ex, 0⟩ := by
      have h := g5
      rw [show (({ w := w } : St).exits ++ ex) = ex from rfl] at h
      rw [← h, ← g4]
    rw [this, (Cli.exit_spec ex).1, g6]

/-- **C82, the history of a property.** Writing one property of resources given by identifiers closes, at the date of the command, the open interval of this property of each
resource whose value changes, opens one with the new value, and keeps the rest of the history. -/
theorem property_logged (e : World) (w : RDB) (ids : List Nat) (s n v nv : String) (hi : ids ≠ []) (hu : (w.res.map Res.id).Nodup)
    (hs : parseProp s = some (n, v)) (hn : n ∉ systemProps) (hc : n ∈ e.cols) (hp : n ≠ "id") (hv : norm n v = some nv) :
    ∃ f, (run e { resources := ids, props := [s] } w).w.rlog = w.rlog.map f ++
        (w.res.filter (fun r => decide (r.id ∈ ids ∧ col r n ≠ some nv))).map (fun r => (⟨r.id, n, v, e.now, 0⟩ : RLog)) ∧
      ∀ l ∈ w.rlog,
        ((l.stop = 0 ∧ l.attr = n ∧ ∃ r ∈ w.res, r.id = l.rid ∧ r.id ∈ ids ∧ col r n ≠ some nv) → f l = ⟨l.rid, l.attr, l.value, l.start, e.now⟩) ∧
        (¬ (l.stop = 0 ∧ l.attr = n ∧ ∃ r ∈ w.res, r.id = l.rid ∧ r.id ∈ ids ∧ col r n ≠ some nv) → f l = l) := by
  have hrun : run e { resources := ids, props := [s] } w = finish e { resources := ids, props := [s] } ids [e.localHost] [] { w := w } := by
    unfold run badArgs change
    simp [hi]
  have ha : allProps { resources := ids, props := [s] } = [s] := List.append_nil _
  obtain ⟨w', k1, k2, k3⟩ := setProperty_ok e w (byIds ids) n v nv hu hc hp hv
  have hw : (run e { resources := ids, props := [s] } w).w = w' := by
    rw [hrun]
    unfold finish
    rw [ha, if_pos hi]
    have hst : setProperties e (byIds ids) { w := w } [s] = { ({ w := w } : St).say [0, 0] with w := w' } := by
      show propStep e (byIds ids) { w := w } s = _
      unfold propStep; rw [if_neg (by simp), hs]; dsimp only; rw [if_neg hn, k1]
    rw [hst]
    simp [St.say, St.tell]
  rw [hw]
  have hsel : targets w (byIds ids) n nv = (w.res.filter (fun r => decide (r.id ∈ ids ∧ col r n ≠ some nv))).map Res.id := by
    unfold targets byIds
    congr 1
    apply List.filter_congr
    intro r _
    simp
  unfold setProperty at k1
  rw [if_neg (fun h => h hc), hv] at k1
  dsimp only at k1
  have hmem : ∀ i, i ∈ targets w (byIds ids) n nv ↔ ∃ r ∈ w.res, r.id = i ∧ r.id ∈ ids ∧ col r n ≠ some nv := by
    intro i
    rw [hsel]
    simp only [List.mem_map, List.mem_filter, decide_eq_true_eq]
    constructor
    · rintro ⟨r, ⟨h1, h2⟩, h3⟩; exact ⟨r, h1, h3, h2⟩
    · rintro ⟨r, h1, h3, h2⟩; exact ⟨r, ⟨h1, h2⟩, h3⟩
  by_cases ht : targets w (byIds ids) n nv = []
  · rw [if_pos ht] at k1
    cases Option.some.inj k1
    refine ⟨id, ?_, ?_⟩
    · have : w.res.filter (fun r => decide (r.id ∈ ids ∧ col r n ≠ some nv)) = [] := by
        rw [hsel] at ht; exact List.map_eq_nil_iff.1 ht
      rw [this]; simp
    · intro l _
      refine ⟨?_, fun _ => rfl⟩
      rintro ⟨_, _, h⟩
      have := (hmem l.rid).2 h
      rw [ht] at this; cases this
  · rw [if_neg ht, if_neg (fun h => hp h.1)] at k1
    rw [← Option.some.inj k1]
    refine ⟨fun r => if r.stop = 0 ∧ (r.attr == n && decide (r.rid ∈ targets w (byIds ids) n nv)) = true then { r with stop := e.now } else r, ?_, ?_⟩
    · show closeLogs _ _ _ ++ List.map _ (targets w (byIds ids) n nv) = _
      conv => lhs; rhs; rw [hsel]
      rw [List.map_map]
      rfl
    · intro l _
      constructor
      · rintro ⟨h1, h2, h3⟩
        dsimp only
        rw [if_pos ⟨h1, by simp [h2, (hmem l.rid).2 h3]⟩]
      · intro h
        dsimp only
        rw [if_neg]
        rintro ⟨h1, h2⟩
        rw [Bool.and_eq_true, decide_eq_true_eq] at h2
        exact h ⟨h1, by simpa using h2.1, (hmem l.rid).1 h2.2⟩

/-- **C82, properties of the resources of hosts.** The same with hosts, for the properties other than the host itself. -/
theorem properties_by_hosts (e : World) (w : RDB) (hosts : List String) (ps : List String) (hi : hosts ≠ []) (hne : ps ≠ [])
    (hu : (w.res.map Res.id).Nodup) (hok : ∀ p ∈ ps, Refused p ∨ Storable e p) (hn : ∀ x ∈ written ps, x.1 ≠ "network_address") :
    ∃ f, (run e { hosts := hosts, props := ps } w).w.res = w.res.map f ∧ SameRest w (run e { hosts := hosts, props := ps } w).w ∧
    (∀ r ∈ w.res, (r.host ∉ hosts → f r = r) ∧ (r.host ∈ hosts → SameSystem r (f r) ∧ ∀ p, col (f r) p = lastOf (written ps) p (col r p))) ∧
    (run e { hosts := hosts, props := ps } w).raised = false ∧ (run e { hosts := hosts, props := ps } w).sent = ["Term"] ∧
    ((exitValue (run e { hosts := hosts, props := ps } w).ret).1 = 0 ↔ ∀ p ∈ ps, ¬ Refused p) := by
  have hps : ps.isEmpty = false := by cases ps <;> simp_all
  have hrun : run e { hosts := hosts, props := ps } w = finish e { hosts := hosts, props := ps } [] hosts [] { w := w } := by
    unfold run badArgs change
    simp [hps, hi]
  have ha : allProps { hosts := hosts, props := ps } = ps := List.append_nil _
  obtain ⟨g1, g2, g3, g4, ⟨ex, g5, g6⟩, g7, g8⟩ := finish_props e { hosts := hosts, props := ps } [] hosts [] { w := w } rfl hu
    (by rw [ha]; exact hne) (by rw [ha]; exact hok) (by
      rw [ha, if_neg (by simp)]
      intro x hx r v
      exact byHosts_setCol hosts r x.1 v (written_mem hok x hx).1 (hn x hx))
  rw [ha] at g6 g7
  rw [hrun]
  refine ⟨_, g7, g8, ?_, g1, g2, ?_⟩
  · intro r _
    rw [if_neg (show ¬ (([] : List Nat) ≠ []) from fun h => h rfl)]
    constructor
    · intro h; rw [if_neg (by unfold byHosts; simpa using h)]
    · intro h
      rw [if_pos (by unfold byHosts; simpa using h)]
      exact applyAll_spec _ r (written_mem hok)
  · have : (finish e { hosts := hosts, props := ps } [] hosts [] { w := w }).ret = ⟨ex, 0⟩ := by
      have h := g5
      rw [show (({ w := w } : St).exits ++ ex) = ex from rfl] at h
      rw [← h, ← g4]
    rw [this, (Cli.exit_spec ex).1, g6]

/-! ## States -/

theorem setNodeNext_all (st : String) : ∀ (hosts : List String) (w : RDB),
    hosts.foldl (fun w h => setNodeNext w h st) w = { w with res := w.res.map (fun r => if r.host ∈ hosts then asking st r else r) } := by
  intro hosts
  induction hosts with
  | nil =>
    intro w
    have : ∀ r ∈ w.res, (if r.host ∈ ([] : List String) then asking st r else r) = r := by intro r _; rw [if_neg (by simp)]
    rw [List.map_congr_left this, List.map_id']; rfl
  | cons h hs ih =>
    intro w
    rw [List.foldl_cons, ih]
    have : (setNodeNext w h st).res.map (fun r => if r.host ∈ hs then asking st r else r)
        = w.res.map (fun r => if r.host ∈ h :: hs then asking st r else r) := by
      show (w.res.map (fun r => if (r.host == h) = true then asking st r else r)).map _ = _
      rw [List.map_map]
      apply List.map_congr_left
      intro r _
      show (if (if (r.host == h) = true then asking st r else r).host ∈ hs then asking st (if (r.host == h) = true then asking st r else r)
        else (if (r.host == h) = true then asking st r else r)) = _
      by_cases h1 : r.host = h
      · rw [if_pos (beq_iff_eq.2 h1), if_pos (List.mem_cons.2 (Or.inl h1))]
        split <;> rfl
      · have h0 : (if (r.host == h) = true then asking st r else r) = r := if_neg (fun hb => h1 (beq_iff_eq.1 hb))
        rw [h0]
        by_cases h2 : r.host ∈ hs
        · rw [if_pos h2, if_pos (List.mem_cons_of_mem _ h2)]
        · rw [if_neg h2, if_neg (by simp [h1, h2])]
    rw [this]; rfl

theorem waitJobs_w (e : World) (s : St) (l : List Nat) : (waitJobs e s l).w = s.w ∧ (waitJobs e s l).sent = s.sent ∧ (waitJobs e s l).raised = s.raised := by
  unfold waitJobs
  split <;> exact ⟨rfl, rfl, rfl⟩

/-- A loop of waits. -/
theorem wait_loop {α : Type} (e : World) (g : RDB → α → List Nat) : ∀ (l : List α) (s : St), s.raised = false →
    (l.foldl (fun s i => waitJobs e (s.say [0]) (g s.w i)) s).w = s.w ∧ (l.foldl (fun s i => waitJobs e (s.say [0]) (g s.w i)) s).sent = s.sent ∧
    (l.foldl (fun s i => waitJobs e (s.say [0]) (g s.w i)) s).raised = false ∧
    (l.foldl (fun s i => waitJobs e (s.say [0]) (g s.w i)) s).waited = s.waited ++ l.flatMap (g s.w) ∧
    ∃ ex, (l.foldl (fun s i => waitJobs e (s.say [0]) (g s.w i)) s).exits = s.exits ++ ex ∧ (∀ x ∈ ex, x = 0 ∨ x = 11) ∧
      ((∀ x ∈ ex, x = 0) ↔ ∀ j ∈ l.flatMap (g s.w), e.ended j = true) := by
  intro l
  induction l with
  | nil => intro s hr; exact ⟨rfl, rfl, hr, (List.append_nil _).symm, [], (List.append_nil _).symm, by simp, by simp⟩
  | cons i l ih =>
    intro s hr
    have hw := waitJobs_w e (s.say [0]) (g s.w i)
    have hf : waitJobs e (s.say [0]) (g s.w i) = { s.say [0] with waited := s.waited ++ g s.w i, exits := (s.exits ++ [0]) ++ (g s.w i).flatMap (fun j => [0, if e.ended j then 0 else 11]) } := by
      unfold waitJobs
      rw [if_neg (by show ¬ (s.raised = true); rw [hr]; decide)]; rfl
    obtain ⟨a1, a2, a3, a4, ex, a5, a6, a7⟩ := ih (waitJobs e (s.say [0]) (g s.w i)) (hw.2.2.trans hr)
    have hww : (waitJobs e (s.say [0]) (g s.w i)).w = s.w := hw.1
    rw [hww] at a4 a7
    rw [List.foldl_cons]
    refine ⟨a1.trans hw.1, a2.trans hw.2.1, a3, ?_, 0 :: (g s.w i).flatMap (fun j => [0, if e.ended j then 0 else 11]) ++ ex, ?_, ?_, ?_⟩
    · rw [a4, hf, List.flatMap_cons, ← List.append_assoc]
    · rw [a5, hf]
      show ((s.exits ++ [0]) ++ _) ++ ex = _
      simp only [List.append_assoc, List.cons_append, List.nil_append]
    · intro x hx
      rcases List.mem_append.1 hx with hx | hx
      · rcases List.mem_cons.1 hx with hx | hx
        · exact Or.inl hx
        · obtain ⟨j, _, hj⟩ := List.mem_flatMap.1 hx
          rcases List.mem_cons.1 hj with hj | hj
          · exact Or.inl hj
          · rw [List.mem_singleton] at hj
            rw [hj]
            split
            · exact Or.inl rfl
            · exact Or.inr rfl
      · exact a6 x hx
    · rw [List.flatMap_cons]
      constructor
      · intro h j hj
        rcases List.mem_append.1 hj with hj | hj
        · apply Classical.byContradiction
          intro hn
          have := h 11 (List.mem_append_left _ (List.mem_cons_of_mem _ (List.mem_flatMap.2 ⟨j, hj, by simp [hn]⟩)))
          exact absurd this (by decide)
        · exact a7.1 (fun x hx => h x (List.mem_append_right _ hx)) j hj
      · intro h x hx
        rcases List.mem_append.1 hx with hx | hx
        · rcases List.mem_cons.1 hx with hx | hx
          · exact hx
          · obtain ⟨j, hj1, hj⟩ := List.mem_flatMap.1 hx
            rw [h j (List.mem_append_left _ hj1)] at hj
            simpa using hj
        · exact a7.2 (fun j hj => h j (List.mem_append_right _ hj)) x hx

theorem finish_none (e : World) (a : Args) (ids : List Nat) (hosts : List String) (s : St) (h : allProps a = []) :
    finish e a ids hosts [] s = ⟨s.w, ⟨s.exits, 0⟩, s.sent, s.waited, s.raised⟩ := by
  have h1 : (if s.raised = true ∨ allProps a = [] then s
      else if (setProperties e (if ids ≠ [] then byIds ids else byHosts hosts) s (allProps a)).raised = true
        then setProperties e (if ids ≠ [] then byIds ids else byHosts hosts) s (allProps a)
        else (setProperties e (if ids ≠ [] then byIds ids else byHosts hosts) s (allProps a)).tell "Term") = s := if_pos (Or.inr h)
  unfold finish
  dsimp only
  rw [h1]
  split <;> rfl

/-- The status after waits only. -/
theorem exit_waits (ex : List Int) (h : ∀ x ∈ ex, x = 0 ∨ x = 11) :
    ((∀ x ∈ ex, x = 0) → (exitValue ⟨ex, 0⟩).1 = 0) ∧ (¬ (∀ x ∈ ex, x = 0) → (exitValue ⟨ex, 0⟩).1 = 11) := by
  refine ⟨(Cli.exit_spec ex).1.2, fun hn => ?_⟩
  have hx : ∃ x ∈ ex, x = 11 := by
    apply Classical.byContradiction
    intro hne
    apply hn
    intro x hx
    rcases h x hx with h | h
    · exact h
    · exact absurd ⟨x, hx, h⟩ hne
  obtain ⟨x, hx, h11⟩ := hx
  subst h11
  apply (Cli.exit_spec _).2.1 11 hx (by decide)
  intro y hy h0
  rcases h y hy with h | h
  · exact absurd h h0
  · exact h

/-- The states that can be asked. -/
def Askable (st : String) : Prop := st = "Alive" ∨ st = "Absent" ∨ st = "Dead"

theorem good_state (a : Args) (st : String) (h : a.state = some st) (hs : Askable st) (hm : a.maintenance = none) (hd : a.drain = none) : badArgs a = false := by
  unfold badArgs
  rw [h, hm, hd]
  rcases hs with rfl | rfl | rfl <;> simp

/-- **C82, state of resources given by identifiers.** The resources selected ask for the state, nothing else changes; with `Absent` or `Dead` (and
not `-n`) the command waits for the jobs of all of them, in the order given, and its status is 11 exactly when one of them did not end in time. -/
theorem state_by_ids (e : World) (w : RDB) (ids : List Nat) (st : String) (nw : Bool) (hi : ids ≠ []) (hs : Askable st) :
    (run e { resources := ids, state := some st, noWait := nw } w).w = { w with res := w.res.map (fun r => if r.id ∈ ids then asking st r else r) } ∧
    (run e { resources := ids, state := some st, noWait := nw } w).raised = false ∧
    (run e { resources := ids, state := some st, noWait := nw } w).sent = ["ChState"] ∧
    (run e { resources := ids, state := some st, noWait := nw } w).waited =
      (if st ≠ "Alive" ∧ nw = false then ids.flatMap (fun i => jobsToFrag w i) else []) ∧
    ((∀ j ∈ (run e { resources := ids, state := some st, noWait := nw } w).waited, e.ended j = true) →
      (exitValue (run e { resources := ids, state := some st, noWait := nw } w).ret).1 = 0) ∧
    ((∃ j ∈ (run e { resources := ids, state := some st, noWait := nw } w).waited, e.ended j = false) →
      (exitValue (run e { resources := ids, state := some st, noWait := nw } w).ret).1 = 11) := by
  have hrun : run e { resources := ids, state := some st, noWait := nw } w =
      (let s := stateIds e nw { w := w } ids st; ⟨s.w, ⟨s.exits, 0⟩, s.sent, s.waited, s.raised⟩) := by
    unfold run
    rw [good_state _ st rfl hs rfl rfl]
    have hc : change e { resources := ids, state := some st, noWait := nw } ids [e.localHost] { w := w } = stateIds e nw { w := w } ids st := by
      unfold change; rw [if_pos hi]
    have hf : ∀ s, finish e { resources := ids, state := some st, noWait := nw } ids [e.localHost] [] s = ⟨s.w, ⟨s.exits, 0⟩, s.sent, s.waited, s.raised⟩ := by
      intro s
      exact finish_none e _ ids _ s rfl
    show finish e _ ids [e.localHost] [] (change e _ ids [e.localHost] { w := w }) = _
    rw [hc, hf]
  rw [hrun]
  have hj : ∀ i, jobsToFrag (setNextAll w ids st) i = jobsToFrag w i := fun i => rfl
  have hres : setNextAll w ids st = { w with res := w.res.map (fun r => if r.id ∈ ids then asking st r else r) } := by
    have : w.res.map (fun r => if decide (r.id ∈ ids) = true then asking st r else r) = w.res.map (fun r => if r.id ∈ ids then asking st r else r) := by
      apply List.map_congr_left
      intro r _
      by_cases h : r.id ∈ ids
      · rw [if_pos h, if_pos (decide_eq_true h)]
      · rw [if_neg h, if_neg (by simpa using h)]
    show ({ w with res := w.res.map (fun r => if decide (r.id ∈ ids) = true then asking st r else r) } : RDB) = _
    rw [this]
  by_cases hA : (st = "Dead" ∨ st = "Absent") ∧ nw = false
  · have hd : stateIds e nw { w := w } ids st = ids.foldl (fun s i => waitJobs e (s.say [0]) (jobsToFrag s.w i))
        { w := setNextAll w ids st, exits := [0], sent := ["ChState"] } := by
      unfold stateIds; rw [if_pos hA]; rfl
    rw [hd]
    obtain ⟨a1, a2, a3, a4, ex, a5, a6, a7⟩ := wait_loop e jobsToFrag ids { w := setNextAll w ids st, exits := [0], sent := ["ChState"] } rfl
    have hne : st ≠ "Alive" := by rcases hA.1 with h | h <;> rw [h] <;> decide
    have hx6 : ∀ x ∈ [0] ++ ex, x = 0 ∨ x = 11 := by
      intro x hx
      rcases List.mem_append.1 hx with hx | hx
      · exact Or.inl (by simpa using hx)
      · exact a6 x hx
    refine ⟨a1.trans hres, a3, a2, ?_, ?_, ?_⟩
    · rw [if_pos ⟨hne, hA.2⟩]
      dsimp only
      rw [a4]; rfl
    · dsimp only
      rw [a4, a5]
      intro hall
      refine (exit_waits _ hx6).1 ?_
      intro x hx
      rcases List.mem_append.1 hx with hx | hx
      · simpa using hx
      · exact a7.2 hall x hx
    · dsimp only
      rw [a4, a5]
      rintro ⟨j, hj, hje⟩
      refine (exit_waits _ hx6).2 ?_
      intro hall
      have := a7.1 (fun x hx => hall x (List.mem_append_right _ hx)) j hj
      rw [hje] at this; cases this
  · have hd : ∃ ex, (∀ x ∈ ex, x = 0) ∧ stateIds e nw { w := w } ids st = { w := setNextAll w ids st, exits := ex, sent := ["ChState"] } := by
      unfold stateIds
      rw [if_neg hA]
      split
      · exact ⟨[0, 0], by simp, rfl⟩
      · exact ⟨[0], by simp, rfl⟩
    obtain ⟨ex, he, hd⟩ := hd
    rw [hd]
    have hne : ¬ (st ≠ "Alive" ∧ nw = false) := by
      rintro ⟨h1, h2⟩
      rcases hs with h | h | h
      · exact h1 h
      · exact hA ⟨Or.inr h, h2⟩
      · exact hA ⟨Or.inl h, h2⟩
    refine ⟨hres, rfl, rfl, (if_neg hne).symm, fun _ => (Cli.exit_spec ex).1.2 he, ?_⟩
    rintro ⟨j, hj, _⟩
    exact absurd hj List.not_mem_nil

/-- The whole list of the jobs waited for with hosts: those of the last host, once for each known host. -/
theorem state_by_hosts (e : World) (w : RDB) (hosts : List String) (st : String) (nw : Bool) (hi : hosts ≠ []) (hs : Askable st) :
    (run e { hosts := hosts, state := some st, noWait := nw } w).w = { w with res := w.res.map (fun r => if r.host ∈ hosts then asking st r else r) } ∧
    (run e { hosts := hosts, state := some st, noWait := nw } w).raised = false ∧
    (run e { hosts := hosts, state := some st, noWait := nw } w).sent = ["ChState"] ∧
    (run e { hosts := hosts, state := some st, noWait := nw } w).waited =
      (if st ≠ "Alive" ∧ nw = false then (hostsKnown w hosts).flatMap (fun _ =>
        nodeJobs { w with res := w.res.map (fun r => if r.host ∈ hosts then asking st r else r) } (hosts.getLast?.getD "")) else []) ∧
    ((∀ j ∈ (run e { hosts := hosts, state := some st, noWait := nw } w).waited, e.ended j = true) →
      (exitValue (run e { hosts := hosts, state := some st, noWait := nw } w).ret).1 = 0) := by
  have hrun : run e { hosts := hosts, state := some st, noWait := nw } w =
      (let s := stateHosts e nw { w := w } hosts st; ⟨s.w, ⟨s.exits, 0⟩, s.sent, s.waited, s.raised⟩) := by
    unfold run
    rw [good_state _ st rfl hs rfl rfl]
    have hc : change e { hosts := hosts, state := some st, noWait := nw } [] hosts { w := w } = stateHosts e nw { w := w } hosts st := rfl
    have hh : (if hosts ++ ([] : List String) = [] then [e.localHost] else hosts ++ []) = hosts := by
      rw [List.append_nil, if_neg hi]
    show finish e _ [] (if hosts ++ ([] : List String) = [] then [e.localHost] else hosts ++ []) [] (change e _ [] (if hosts ++ ([] : List String) = [] then [e.localHost] else hosts ++ []) { w := w }) = _
    rw [hh, hc, finish_none e _ [] _ _ rfl]
  rw [hrun]
  have h0 : ∀ x ∈ hosts.map (fun _ => (0 : Int)), x = 0 := by
    intro x hx
    obtain ⟨_, _, h⟩ := List.mem_map.1 hx
    exact h.symm
  by_cases hA : (st = "Dead" ∨ st = "Absent") ∧ nw = false
  · have hd : stateHosts e nw { w := w } hosts st = (hostsKnown w hosts).foldl (fun s' _ => waitJobs e (s'.say [0]) (nodeJobs s'.w (hosts.getLast?.getD "")))
        { w := { w with res := w.res.map (fun r => if r.host ∈ hosts then asking st r else r) }, exits := hosts.map (fun _ => 0), sent := ["ChState"] } := by
      unfold stateHosts; rw [if_pos hA, setNodeNext_all]; rfl
    rw [hd]
    obtain ⟨a1, a2, a3, a4, ex, a5, a6, a7⟩ := wait_loop e (fun w' (_ : String) => nodeJobs w' (hosts.getLast?.getD "")) (hostsKnown w hosts)
      { w := { w with res := w.res.map (fun r => if r.host ∈ hosts then asking st r else r) }, exits := hosts.map (fun _ => 0), sent := ["ChState"] } rfl
    have hne : st ≠ "Alive" := by rcases hA.1 with h | h <;> rw [h] <;> decide
    refine ⟨a1, a3, a2, ?_, ?_⟩
    · rw [if_pos ⟨hne, hA.2⟩]
      exact a4
    · dsimp only
      rw [a4, a5]
      intro hall
      apply (Cli.exit_spec _).1.2
      intro x hx
      rcases List.mem_append.1 hx with hx | hx
      · exact h0 x hx
      · exact a7.2 hall x hx
  · have hd : stateHosts e nw { w := w } hosts st =
        { w := { w with res := w.res.map (fun r => if r.host ∈ hosts then asking st r else r) }, exits := hosts.map (fun _ => 0), sent := ["ChState"] } := by
      unfold stateHosts
      rw [if_neg hA, setNodeNext_all]; rfl
    rw [hd]
    have hne : ¬ (st ≠ "Alive" ∧ nw = false) := by
      rintro ⟨h1, h2⟩
      rcases hs with h | h | h
      · exact h1 h
      · exact hA ⟨Or.inr h, h2⟩
      · exact hA ⟨Or.inl h, h2⟩
    exact ⟨rfl, rfl, rfl, (if_neg hne).symm, fun _ => (Cli.exit_spec _).1.2 h0⟩

/-- The job `j` holds a resource of the host and is not ended; it is the one the command should wait for. -/
def HoldsHost (w : RDB) (host : String) (j : Nat) : Prop :=
  ∃ row ∈ w.db.jobs, row.id = j ∧ row.state ≠ "Terminated" ∧ row.state ≠ "Error" ∧ "cosystem" ∉ row.types ∧ "noop" ∉ row.types ∧
    ∃ a ∈ w.assigned, a.current = true ∧ (a.mold, j) ∈ w.molds ∧ ∃ r ∈ w.res, r.host = host ∧ r.id = a.rid

theorem nodeJobs_spec (w : RDB) (host : String) (j : Nat) : j ∈ nodeJobs w host ↔ HoldsHost w host j := by
  unfold nodeJobs HoldsHost
  simp only [List.mem_map, List.mem_filter, Bool.and_eq_true, List.any_eq_true, beq_iff_eq, Bool.not_eq_true', decide_eq_false_iff_not,
    beq_eq_false_iff_ne, ne_eq]
  constructor
  · rintro ⟨row, ⟨h1, ⟨⟨⟨⟨a, ha, ⟨hc, r, hr, hh, hi⟩, m, hm, hm1, hm2⟩, h2⟩, h3⟩, h4⟩, h5⟩, rfl⟩
    exact ⟨row, h1, rfl, h2, h3, h4, h5, a, ha, hc, by rw [← hm1, ← hm2]; exact hm, r, hr, hh, hi⟩
  · rintro ⟨row, h1, rfl, h2, h3, h4, h5, a, ha, hc, hm, r, hr, hh, hi⟩
    exact ⟨row, ⟨h1, ⟨⟨⟨⟨a, ha, ⟨hc, r, hr, hh, hi⟩, (a.mold, row.id), hm, rfl, rfl⟩, h2⟩, h3⟩, h4⟩, h5⟩, rfl⟩

theorem nodeJobs_asking (w : RDB) (hosts : List String) (st host : String) :
    nodeJobs { w with res := w.res.map (fun r => if r.host ∈ hosts then asking st r else r) } host = nodeJobs w host := by
  unfold nodeJobs
  have : (fun a : Ass => (w.res.map (fun r => if r.host ∈ hosts then asking st r else r)).any (fun r => r.host == host && r.id == a.rid))
      = fun a => w.res.any (fun r => r.host == host && r.id == a.rid) := by
    funext a
    rw [List.any_map]
    congr 1
    funext r
    show ((if r.host ∈ hosts then asking st r else r).host == host && (if r.host ∈ hosts then asking st r else r).id == a.rid) = _
    split <;> rfl
  have e := congrFun this
  simp only [e]

/-- **C82, waiting (one host).** With one host of the database, the jobs waited for are those that hold one of its resources. -/
theorem waits_one_host_partial (e : World) (w : RDB) (host st : String) (hst : st = "Absent" ∨ st = "Dead") (hk : ∃ r ∈ w.res, r.host = host) :
    ∀ j, j ∈ (run e { hosts := [host], state := some st } w).waited ↔ HoldsHost w host j := by
  intro j
  obtain ⟨_, _, _, h, _⟩ := state_by_hosts e w [host] st false (by simp) (Or.inr hst)
  obtain ⟨r, hr, hh⟩ := hk
  have hkn : hostsKnown w [host] = [host] := by
    unfold hostsKnown
    have ha : w.res.any (fun r => r.host == host) = true := List.any_eq_true.2 ⟨r, hr, beq_iff_eq.2 hh⟩
    rw [List.filter_cons, if_pos ha]; rfl
  rw [h, if_pos ⟨by rcases hst with h | h <;> rw [h] <;> decide, rfl⟩, hkn, nodeJobs_asking]
  simp only [List.flatMap_cons, List.flatMap_nil, List.append_nil]
  exact nodeJobs_spec w host j

/-- C82 (violated). With several hosts, only the jobs of the last one are waited for: the command ends, with the status 0 when those are ended, while jobs
run on the others. -/
theorem waits_other_hosts_violated (e : World) (w : RDB) (hosts : List String) (last st : String) (hst : st = "Absent" ∨ st = "Dead")
    (j : Nat) (host : String) (_ : host ∈ hosts) (_ : HoldsHost w host j) (hl : ¬ HoldsHost w last j)
    (hend : ∀ i, HoldsHost w last i → e.ended i = true) :
    j ∉ (run e { hosts := hosts ++ [last], state := some st } w).waited ∧
    (exitValue (run e { hosts := hosts ++ [last], state := some st } w).ret).1 = 0 := by
  obtain ⟨_, _, _, h, hx⟩ := state_by_hosts e w (hosts ++ [last]) st false (by simp) (Or.inr hst)
  have hw : ∀ i ∈ (run e { hosts := hosts ++ [last], state := some st } w).waited, HoldsHost w last i := by
    intro i hi
    rw [h, if_pos ⟨by rcases hst with h | h <;> rw [h] <;> decide, rfl⟩] at hi
    obtain ⟨_, _, hi⟩ := List.mem_flatMap.1 hi
    rw [nodeJobs_asking, List.getLast?_concat] at hi
    exact (nodeJobs_spec w last i).1 hi
  exact ⟨fun hj => hl (hw j hj), hx (fun i hi => hend i (hw i hi))⟩

/-- C82 (violated). A host that does not exist is not an error for the exit status. -/
theorem unknown_host_violated (e : World) (w : RDB) (host : String) (h : ∀ r ∈ w.res, r.host ≠ host) :
    (run e { hosts := [host], state := some "Dead" } w).w = w ∧ (exitValue (run e { hosts := [host], state := some "Dead" } w).ret).1 = 0 := by
  obtain ⟨h1, _, _, h4, h5⟩ := state_by_hosts e w [host] "Dead" false (by simp) (Or.inr (Or.inr rfl))
  constructor
  · rw [h1]
    have : ∀ r ∈ w.res, (if r.host ∈ [host] then asking "Dead" r else r) = r := by
      intro r hr; rw [if_neg (by simpa using h r hr)]
    rw [List.map_congr_left this, List.map_id']
  · apply h5
    intro j hj
    rw [h4, if_pos ⟨by decide, rfl⟩] at hj
    obtain ⟨x, hx, _⟩ := List.mem_flatMap.1 hj
    unfold hostsKnown at hx
    obtain ⟨hx1, hx2⟩ := List.mem_filter.1 hx
    rw [List.mem_singleton] at hx1
    subst hx1
    obtain ⟨r, hr, hr2⟩ := List.any_eq_true.1 hx2
    exact absurd (beq_iff_eq.1 hr2) (h r hr)

/-! ## Refusals -/

/-- **C82, bad arguments.** Without any action, or with an unknown state or mode, nothing is done and the status is 1. -/
theorem bad_arguments (e : World) (a : Args) (w : RDB)
    (h : (a.props = [] ∧ a.state = none ∧ a.add = false ∧ a.maintenance = none ∧ a.drain = none) ∨
      (∃ x, a.state = some x ∧ ¬ Askable x) ∨ (∃ x, a.maintenance = some x ∧ x ≠ "on" ∧ x ≠ "off") ∨
      (∃ x, a.drain = some x ∧ x ≠ "on" ∧ x ≠ "off")) :
    (run e a w).w = w ∧ (exitValue (run e a w).ret).1 = 1 ∧ (run e a w).sent = [] ∧ (run e a w).waited = [] := by
  have hb : badArgs a = true := by
    unfold badArgs
    rcases h with ⟨h1, h2, h3, h4, h5⟩ | ⟨x, h1, h2⟩ | ⟨x, h1, h2, h3⟩ | ⟨x, h1, h2, h3⟩
    · rw [h1, h2, h3, h4, h5]; rfl
    · have : (a.state.any fun x => x != "Alive" && x != "Absent" && x != "Dead") = true := by
        rw [h1]
        show (x != "Alive" && x != "Absent" && x != "Dead") = true
        unfold Askable at h2
        simp only [not_or] at h2
        simp [h2.1, h2.2.1, h2.2.2]
      rw [this, Bool.or_true, Bool.true_or, Bool.true_or]
    · have : (a.maintenance.any fun x => x != "on" && x != "off") = true := by
        rw [h1]
        show (x != "on" && x != "off") = true
        simp [h2, h3]
      rw [this, Bool.or_true, Bool.true_or]
    · have : (a.drain.any fun x => x != "on" && x != "off") = true := by
        rw [h1]
        show (x != "on" && x != "off") = true
        simp [h2, h3]
      rw [this, Bool.or_true]
  unfold run
  rw [if_pos hb]
  exact ⟨rfl, rfl, rfl, rfl⟩

/-- **C82, add and select.** `--add` with resources selected is refused with the status 1. -/
theorem add_and_select (e : World) (a : Args) (w : RDB) (ha : a.add = true) (hf : a.file ≠ some none) (hs : a.sql ≠ some [])
    (h : a.sql.getD a.resources ≠ []) : (run e a w).w = w ∧ (exitValue (run e a w).ret).1 = 1 := by
  unfold run
  by_cases hb : badArgs a = true
  · rw [if_pos hb]; exact ⟨rfl, rfl⟩
  · rw [if_neg hb, if_neg hs, if_neg hf, if_pos ⟨ha, h⟩]; exact ⟨rfl, rfl⟩

/-- C82 (violated). A file of hosts: each name keeps its end of line, and no resource is found; the status is 0. -/
theorem file_violated (e : World) (w : RDB) (names : List String) (hne : names ≠ []) (hl : ∀ r ∈ w.res, r.host.toList.getLast? ≠ some '\n') :
    (run e { file := some (some (names.map (fun n => n ++ "\n"))), state := some "Alive" } w).w = w := by
  have hrun : run e { file := some (some (names.map (fun n => n ++ "\n"))), state := some "Alive" } w =
      run e { hosts := names.map (fun n => n ++ "\n"), state := some "Alive" } w := by
    unfold run
    rw [good_state _ "Alive" rfl (Or.inl rfl) rfl rfl, good_state _ "Alive" rfl (Or.inl rfl) rfl rfl]
    generalize names.map (fun n => n ++ "\n") = L
    show finish e _ [] (if ([] : List String) ++ L = [] then [e.localHost] else [] ++ L) [] (change e _ [] (if ([] : List String) ++ L = [] then [e.localHost] else [] ++ L) { w := w })
      = finish e _ [] (if L ++ ([] : List String) = [] then [e.localHost] else L ++ []) [] (change e _ [] (if L ++ ([] : List String) = [] then [e.localHost] else L ++ []) { w := w })
    rw [finish_none e _ _ _ _ rfl, finish_none e _ _ _ _ rfl, List.append_nil]
    rfl
  rw [hrun]
  obtain ⟨h1, _⟩ := state_by_hosts e w (names.map (fun n => n ++ "\n")) "Alive" false (by simpa using hne) (Or.inl rfl)
  rw [h1]
  have : ∀ r ∈ w.res, (if r.host ∈ names.map (fun n => n ++ "\n") then asking "Alive" r else r) = r := by
    intro r hr
    rw [if_neg]
    intro hm
    obtain ⟨n, _, hn⟩ := List.mem_map.1 hm
    apply hl r hr
    rw [← hn, String.toList_append]
    show (n.toList ++ ['\n']).getLast? = _
    rw [List.getLast?_concat]
  rw [List.map_congr_left this, List.map_id']

/-- C82 (violated). A file that cannot be read ends the command by an exception, in place of a message. -/
theorem unreadable_file_violated (e : World) (w : RDB) (host : String) : (run e { hosts := [host], file := some none, state := some "Dead" } w).raised = true := by
  unfold run
  rw [good_state _ "Dead" rfl (Or.inr (Or.inr rfl)) rfl rfl]
  rfl

/-! ## Maintenance -/

/-- The row put in maintenance. -/
def onRow (r : Res) : Res :=
  { r with
    next := "Absent"
    nextFinaud := false
    prop := fun q => if q = "available_upto" then some "0"
      else if q = "last_available_upto" then (if r.prop "available_upto" ≠ some "0" then r.prop "available_upto" else r.prop "last_available_upto")
      else r.prop q }

/-- The row put back. -/
def offRow (r : Res) : Res :=
  { r with
    next := "Alive"
    nextFinaud := false
    prop := fun q => if q = "available_upto" ∧ r.prop "last_available_upto" ≠ some "0" then r.prop "last_available_upto" else r.prop q }

theorem onRow_avail (r : Res) : (onRow r).prop "available_upto" = some "0" := rfl

theorem onRow_last (r : Res) : (onRow r).prop "last_available_upto" =
    if r.prop "available_upto" ≠ some "0" then r.prop "available_upto" else r.prop "last_available_upto" := rfl

theorem onRow_other (r : Res) (q : String) (h1 : q ≠ "available_upto") (h2 : q ≠ "last_available_upto") : (onRow r).prop q = r.prop q := by
  show (if q = "available_upto" then some "0" else if q = "last_available_upto" then
    (if r.prop "available_upto" ≠ some "0" then r.prop "available_upto" else r.prop "last_available_upto") else r.prop q) = _
  rw [if_neg h1, if_neg h2]

theorem offRow_avail (r : Res) : (offRow r).prop "available_upto" =
    if r.prop "last_available_upto" ≠ some "0" then r.prop "last_available_upto" else r.prop "available_upto" := by
  show (if "available_upto" = "available_upto" ∧ r.prop "last_available_upto" ≠ some "0" then r.prop "last_available_upto" else r.prop "available_upto") = _
  by_cases h : r.prop "last_available_upto" ≠ some "0"
  · rw [if_pos ⟨rfl, h⟩, if_pos h]
  · rw [if_neg (fun x => h x.2), if_neg h]

theorem offRow_other (r : Res) (q : String) (h1 : q ≠ "available_upto") : (offRow r).prop q = r.prop q := by
  show (if q = "available_upto" ∧ r.prop "last_available_upto" ≠ some "0" then r.prop "last_available_upto" else r.prop q) = _
  rw [if_neg (fun h => h1 h.1)]

theorem text_ne {u : Int} (h : u ≠ 0) : some (intText u) ≠ some "0" := by
  rw [← intText_zero]
  intro hx
  exact h (intText_inj (Option.some.inj hx))

theorem parse_zero : parseProp "available_upto=0" = some ("available_upto", "0") := by decide +kernel

theorem parse_last (u : Int) : parseProp ("last_available_upto=" ++ intText u) = some ("last_available_upto", intText u) := by
  have := parse_pair "last_available_upto" (intText u) (by decide +kernel) (by unfold intText; rw [String.toList_ofList]; exact str_plain u) (by decide +kernel)
  exact this

theorem parse_avail (u : Int) : parseProp ("available_upto=" ++ intText u) = some ("available_upto", intText u) := by
  have := parse_pair "available_upto" (intText u) (by decide +kernel) (by unfold intText; rw [String.toList_ofList]; exact str_plain u) (by decide +kernel)
  exact this

/-- The columns of the maintenance are attributes of the resources. -/
def HasCols (e : World) : Prop := "available_upto" ∈ e.cols ∧ "last_available_upto" ∈ e.cols

theorem storable_avail (e : World) (h : HasCols e) (u : Int) : Storable e ("available_upto=" ++ intText u) :=
  ⟨_, _, parse_avail u, by decide, h.1, by decide, by rw [norm_int]; rfl⟩

theorem storable_last (e : World) (h : HasCols e) (u : Int) : Storable e ("last_available_upto=" ++ intText u) :=
  ⟨_, _, parse_last u, by decide, h.2, by decide, by rw [norm_int]; rfl⟩

theorem written_avail (u : Int) : written ["available_upto=" ++ intText u] = [("available_upto", intText u)] := by
  unfold written
  rw [List.filterMap_cons, parse_avail u]; rfl

theorem written_both (u v : Int) : written ["available_upto=" ++ intText u, "last_available_upto=" ++ intText v] = [("available_upto", intText u), ("last_available_upto", intText v)] := by
  unfold written
  rw [List.filterMap_cons, parse_avail u, List.filterMap_cons, parse_last v]; rfl

theorem zero_text : "available_upto=0" = "available_upto=" ++ intText 0 := by rw [intText_zero]; rfl

theorem byIds_one (rid : Nat) (r : Res) : byIds [rid] r = true ↔ r.id = rid := by
  unfold byIds; simp

/-- The steps after the properties. -/
theorem maintain_rows (w : RDB) (rid : Nat) (g : Res → Res) (hg : ∀ r, (g r).id = r.id) (st : String) (s2 : RDB)
    (h : s2.res = w.res.map (fun r => if byIds [rid] r = true then g r else r)) :
    (setNext s2 rid st).res = w.res.map (fun r => if r.id = rid then asking st (g r) else r) := by
  show s2.res.map (fun r => if (r.id == rid) = true then asking st r else r) = _
  rw [h, List.map_map]
  apply List.map_congr_left
  intro r _
  show (if ((if byIds [rid] r = true then g r else r).id == rid) = true then asking st (if byIds [rid] r = true then g r else r)
    else (if byIds [rid] r = true then g r else r)) = _
  by_cases hr : r.id = rid
  · rw [if_pos ((byIds_one rid r).2 hr), if_pos hr, if_pos (by rw [hg, hr]; exact beq_self_eq_true _)]
  · rw [if_neg (fun h => hr ((byIds_one rid r).1 h)), if_neg hr, if_neg (fun h => hr (beq_iff_eq.1 h))]

theorem setCol_prop (r : Res) (p v : String) (h1 : p ≠ "id") (h2 : p ≠ "network_address") (h3 : p ≠ "type") :
    setCol r p v = { r with prop := fun q => if q = p then some v else r.prop q } := by
  unfold setCol; rw [if_neg h1, if_neg h2, if_neg h3]

theorem on_row (r : Res) (u : Int) (hu : r.prop "available_upto" = some (intText u)) (hz : u ≠ 0) :
    asking "Absent" (applyAll [("available_upto", intText 0), ("last_available_upto", intText u)] r) = onRow r := by
  have hne : r.prop "available_upto" ≠ some "0" := by
    rw [hu, ← intText_zero]
    intro h
    exact hz (intText_inj (Option.some.inj h))
  unfold applyAll
  simp only [List.foldl_cons, List.foldl_nil, norm_int, Option.getD_some]
  rw [setCol_prop _ "available_upto" _ (by decide) (by decide) (by decide), setCol_prop _ "last_available_upto" _ (by decide) (by decide) (by decide)]
  unfold asking onRow
  congr 1
  funext q
  dsimp only
  by_cases h1 : q = "last_available_upto"
  · have h2 : q ≠ "available_upto" := by rw [h1]; decide
    rw [if_pos h1, if_neg h2, if_pos h1, if_pos hne, hu]
  · rw [if_neg h1, if_neg h1, intText_zero]

theorem on_row_zero (r : Res) (hu : r.prop "available_upto" = some "0") :
    asking "Absent" (applyAll [("available_upto", intText 0)] r) = onRow r := by
  unfold applyAll
  simp only [List.foldl_cons, List.foldl_nil, norm_int, Option.getD_some]
  rw [setCol_prop _ "available_upto" _ (by decide) (by decide) (by decide)]
  unfold asking onRow
  congr 1
  funext q
  dsimp only
  rw [intText_zero]
  by_cases h2 : q = "available_upto"
  · rw [if_pos h2, if_pos h2]
  · rw [if_neg h2, if_neg h2]
    by_cases h1 : q = "last_available_upto"
    · rw [if_pos h1, if_neg (fun h => h hu), h1]
    · rw [if_neg h1]

theorem off_row (r : Res) (u : Int) (hu : r.prop "last_available_upto" = some (intText u)) (hz : u ≠ 0) :
    asking "Alive" (applyAll [("available_upto", intText u)] r) = offRow r := by
  have hne : r.prop "last_available_upto" ≠ some "0" := by
    rw [hu, ← intText_zero]
    intro h
    exact hz (intText_inj (Option.some.inj h))
  unfold applyAll
  simp only [List.foldl_cons, List.foldl_nil, norm_int, Option.getD_some]
  rw [setCol_prop _ "available_upto" _ (by decide) (by decide) (by decide)]
  unfold asking offRow
  congr 1
  funext q
  dsimp only
  by_cases h2 : q = "available_upto"
  · rw [if_pos h2, if_pos ⟨h2, hne⟩, hu]
  · rw [if_neg h2, if_neg (fun h => h2 h.1)]

theorem off_row_zero (r : Res) (hu : r.prop "last_available_upto" = some "0") : asking "Alive" r = offRow r := by
  unfold asking offRow
  congr 1
  funext q
  rw [if_neg (fun h => h.2 hu)]

theorem wait_end (e : World) (nw : Bool) (s : St) (l : List Nat) (hr : s.raised = false) :
    (if nw then s else waitJobs e (s.say [0]) l).raised = false ∧ (if nw then s else waitJobs e (s.say [0]) l).w = s.w := by
  split
  · exact ⟨hr, rfl⟩
  · exact ⟨(waitJobs_w e (s.say [0]) l).2.2.trans hr, (waitJobs_w e (s.say [0]) l).1⟩

theorem maintain_one (e : World) (hc : HasCols e) (on nw : Bool) (s : St) (rid : Nat) (hr : s.raised = false) (hu : (s.w.res.map Res.id).Nodup)
    (hn : ∀ r ∈ s.w.res, Numbers r) (hk : ∃ r ∈ s.w.res, r.id = rid) :
    (maintainOne e on nw s rid).raised = false ∧
    (maintainOne e on nw s rid).w.res = s.w.res.map (fun r => if r.id = rid then (if on then onRow r else offRow r) else r) ∧
    SameRest s.w (maintainOne e on nw s rid).w := by
  obtain ⟨r, hr1, hr2⟩ := hk
  have hf : s.w.res.find? (fun r => r.id == rid) = some r := by
    cases h : s.w.res.find? (fun r => r.id == rid) with
    | none =>
      have := List.find?_eq_none.1 h r hr1
      rw [hr2] at this
      exact absurd (beq_self_eq_true _) this
    | some x =>
      have h1 := List.find?_some h
      have h2 := List.mem_of_find?_eq_some h
      rw [nodup_unique hu x h2 r hr1 ((beq_iff_eq.1 h1).trans hr2.symm)]
  obtain ⟨u, l, hu1, hl1⟩ := hn r hr1
  have hlog : ∀ b, (logMaintenance s.w e.now rid b).res = s.w.res ∧ SameRest s.w (logMaintenance s.w e.now rid b) := by
    intro b; cases b <;> exact ⟨rfl, rfl, rfl, rfl⟩
  have only : ∀ x ∈ s.w.res, x.id = rid → x = r := fun x hx h => nodup_unique hu x hx r hr1 (h.trans hr2.symm)
  have hw : ∀ ps, (∀ p ∈ ps, Storable e p) → ∀ b, (let s2 := setProperties e (byIds [rid]) { s.say [0] with w := logMaintenance s.w e.now rid b } ps
      s2.raised = false ∧ s2.w.res = s.w.res.map (fun r => if byIds [rid] r = true then applyAll (written ps) r else r) ∧ SameRest s.w s2.w) := by
    intro ps hps b
    obtain ⟨g1, g2, g3, _, g6, g7⟩ := props_loop e (byIds [rid]) ps { s.say [0] with w := logMaintenance s.w e.now rid b } hr
      (by show ((logMaintenance s.w e.now rid b).res.map Res.id).Nodup; rw [(hlog b).1]; exact hu) (fun p hp => Or.inr (hps p hp))
      (fun x hx r v => byIds_setCol [rid] r x.1 v (written_mem (fun p hp => Or.inr (hps p hp)) x hx).1)
    obtain ⟨k1, k2, k3⟩ := g7
    obtain ⟨m1, m2, m3⟩ := (hlog b).2
    refine ⟨g1, ?_, k1.trans m1, k2.trans m2, k3.trans m3⟩
    rw [g6]
    show (logMaintenance s.w e.now rid b).res.map _ = _
    rw [(hlog b).1]
  have hid : ∀ ps, (∀ p ∈ ps, Storable e p) → ∀ r, (applyAll (written ps) r).id = r.id :=
    fun ps hps r => (applyAll_spec (written ps) r (written_mem (fun p hp => Or.inr (hps p hp)))).1.1
  cases on with
  | true =>
    have key : ∀ ps, (∀ p ∈ ps, Storable e p) → asking "Absent" (applyAll (written ps) r) = onRow r →
        ps = ("available_upto=0" :: if r.prop "available_upto" ≠ some "0" then ["last_available_upto=" ++ shown (r.prop "available_upto")] else []) →
        (maintainOne e true nw s rid).raised = false ∧
        (maintainOne e true nw s rid).w.res = s.w.res.map (fun r => if r.id = rid then (if true then onRow r else offRow r) else r) ∧
        SameRest s.w (maintainOne e true nw s rid).w := by
      intro ps hps hrow hpe
      obtain ⟨g1, g2, g3⟩ := hw ps hps true
      have hm : maintainOne e true nw s rid =
          (let s2 := setProperties e (byIds [rid]) { s.say [0] with w := logMaintenance s.w e.now rid true } ps
           let s3 := { s2 with w := setNext s2.w rid "Absent" }.tell "ChState"
           if nw then s3 else waitJobs e (s3.say [0]) (jobsToFrag s3.w rid)) := by
        unfold maintainOne
        rw [if_neg (by rw [hr]; decide), hf]
        dsimp only
        rw [if_pos rfl, ← hpe, if_neg (by rw [g1]; decide)]
      obtain ⟨q1, q2⟩ := wait_end e nw ({ setProperties e (byIds [rid]) { s.say [0] with w := logMaintenance s.w e.now rid true } ps with
        w := setNext (setProperties e (byIds [rid]) { s.say [0] with w := logMaintenance s.w e.now rid true } ps).w rid "Absent" }.tell "ChState")
        (jobsToFrag (setNext (setProperties e (byIds [rid]) { s.say [0] with w := logMaintenance s.w e.now rid true } ps).w rid "Absent") rid) g1
      rw [hm]
      refine ⟨q1, ?_, ?_⟩
      · refine (congrArg RDB.res q2).trans ?_
        refine (maintain_rows s.w rid (applyAll (written ps)) (hid ps hps) "Absent" _ g2).trans ?_
        apply List.map_congr_left
        intro x hx
        by_cases h : x.id = rid
        · rw [if_pos h, if_pos h, if_pos rfl, only x hx h, hrow]
        · rw [if_neg h, if_neg h]
      · exact ⟨(congrArg RDB.db q2).trans g3.1, (congrArg RDB.assigned q2).trans g3.2.1, (congrArg RDB.molds q2).trans g3.2.2⟩
    by_cases hz : u = 0
    · subst hz
      have hu2 : r.prop "available_upto" = some "0" := by rw [hu1, intText_zero]
      apply key ["available_upto=" ++ intText 0]
      · intro p hp; rw [List.mem_singleton] at hp; rw [hp]; exact storable_avail e hc 0
      · rw [written_avail]; exact on_row_zero r hu2
      · rw [if_neg (fun h => h hu2), zero_text]
    · have hne : r.prop "available_upto" ≠ some "0" := by
        rw [hu1, ← intText_zero]
        intro h
        exact hz (intText_inj (Option.some.inj h))
      apply key ["available_upto=" ++ intText 0, "last_available_upto=" ++ intText u]
      · intro p hp
        rcases List.mem_cons.1 hp with hp | hp
        · rw [hp]; exact storable_avail e hc 0
        · rw [List.mem_singleton] at hp; rw [hp]; exact storable_last e hc u
      · rw [written_both]; exact on_row r u hu1 hz
      · rw [if_pos hne, zero_text, hu1]; rfl
  | false =>
    have key : ∀ ps, (∀ p ∈ ps, Storable e p) → asking "Alive" (applyAll (written ps) r) = offRow r →
        ps = (if r.prop "last_available_upto" ≠ some "0" then ["available_upto=" ++ shown (r.prop "last_available_upto")] else []) →
        (maintainOne e false nw s rid).raised = false ∧
        (maintainOne e false nw s rid).w.res = s.w.res.map (fun r => if r.id = rid then (if false then onRow r else offRow r) else r) ∧
        SameRest s.w (maintainOne e false nw s rid).w := by
      intro ps hps hrow hpe
      obtain ⟨g1, g2, g3⟩ := hw ps hps false
      have hm : maintainOne e false nw s rid =
          (let s2 := setProperties e (byIds [rid]) { s.say [0] with w := logMaintenance s.w e.now rid false } ps
           { s2 with w := setNext s2.w rid "Alive" }.tell "ChState") := by
        unfold maintainOne
        rw [if_neg (by rw [hr]; decide), hf]
        dsimp only
        rw [if_neg (by decide), ← hpe, if_neg (by rw [g1]; decide)]
      rw [hm]
      refine ⟨g1, ?_, g3⟩
      refine (maintain_rows s.w rid (applyAll (written ps)) (hid ps hps) "Alive" _ g2).trans ?_
      apply List.map_congr_left
      intro x hx
      by_cases h : x.id = rid
      · rw [if_pos h, if_pos h, if_neg (by decide), only x hx h, hrow]
      · rw [if_neg h, if_neg h]
    by_cases hz : l = 0
    · subst hz
      have hl2 : r.prop "last_available_upto" = some "0" := by rw [hl1, intText_zero]
      apply key []
      · intro p hp; cases hp
      · exact off_row_zero r hl2
      · rw [if_neg (fun h => h hl2)]
    · have hne : r.prop "last_available_upto" ≠ some "0" := by
        rw [hl1, ← intText_zero]
        intro h
        exact hz (intText_inj (Option.some.inj h))
      apply key ["available_upto=" ++ intText l]
      · intro p hp; rw [List.mem_singleton] at hp; rw [hp]; exact storable_avail e hc l
      · rw [written_avail]; exact off_row r l hl1 hz
      · rw [if_pos hne, hl1]; rfl

/-- The row changed. -/
def mRow (on : Bool) (r : Res) : Res := if on then onRow r else offRow r

theorem mRow_id (on : Bool) (r : Res) : (mRow on r).id = r.id := by cases on <;> rfl

theorem mRow_numbers (on : Bool) (r : Res) (h : Numbers r) : Numbers (mRow on r) := by
  obtain ⟨u, l, h1, h2⟩ := h
  cases on with
  | true =>
    refine ⟨0, if u = 0 then l else u, ?_, ?_⟩
    · show (onRow r).prop "available_upto" = _
      rw [onRow_avail, intText_zero]
    · show (onRow r).prop "last_available_upto" = _
      rw [onRow_last, h1, h2]
      by_cases hu : u = 0
      · rw [if_pos hu, hu, intText_zero, if_neg (fun h => h rfl)]
      · rw [if_neg hu, if_pos (text_ne hu)]
  | false =>
    refine ⟨if l = 0 then u else l, l, ?_, ?_⟩
    · show (offRow r).prop "available_upto" = _
      rw [offRow_avail, h1, h2]
      by_cases hl : l = 0
      · rw [if_pos hl, hl, intText_zero, if_neg (fun h => h rfl)]
      · rw [if_neg hl, if_pos (text_ne hl)]
    · show (offRow r).prop "last_available_upto" = _
      rw [offRow_other r _ (by decide), h2]

theorem mRow_twice (on : Bool) (r : Res) : mRow on (mRow on r) = mRow on r := by
  cases on with
  | true =>
    show onRow (onRow r) = onRow r
    have h1 : (onRow r).prop "available_upto" = some "0" := rfl
    have : (onRow (onRow r)).prop = (onRow r).prop := by
      funext q
      show (if q = "available_upto" then some "0" else if q = "last_available_upto" then
        (if (onRow r).prop "available_upto" ≠ some "0" then (onRow r).prop "available_upto" else (onRow r).prop "last_available_upto") else (onRow r).prop q) = _
      by_cases h2 : q = "available_upto"
      · rw [if_pos h2, h2, h1]
      · rw [if_neg h2]
        by_cases h3 : q = "last_available_upto"
        · rw [if_pos h3, if_neg (fun h => h h1), h3]
        · rw [if_neg h3]
    show ({ onRow r with prop := (onRow (onRow r)).prop } : Res) = onRow r
    rw [this]
  | false =>
    show offRow (offRow r) = offRow r
    have h1 : (offRow r).prop "last_available_upto" = r.prop "last_available_upto" := offRow_other r _ (by decide)
    have : (offRow (offRow r)).prop = (offRow r).prop := by
      funext q
      show (if q = "available_upto" ∧ (offRow r).prop "last_available_upto" ≠ some "0" then (offRow r).prop "last_available_upto" else (offRow r).prop q) = _
      rw [h1]
      by_cases h2 : q = "available_upto" ∧ r.prop "last_available_upto" ≠ some "0"
      · rw [if_pos h2]
        show _ = (if q = "available_upto" ∧ r.prop "last_available_upto" ≠ some "0" then _ else _)
        rw [if_pos h2]
      · rw [if_neg h2]
    show ({ offRow r with prop := (offRow (offRow r)).prop } : Res) = offRow r
    rw [this]

theorem maintain_all (e : World) (hc : HasCols e) (on nw : Bool) : ∀ (ids : List Nat) (s : St), s.raised = false → (s.w.res.map Res.id).Nodup →
    (∀ r ∈ s.w.res, Numbers r) → (∀ i ∈ ids, ∃ r ∈ s.w.res, r.id = i) →
    (setMaintenance e on nw s ids).raised = false ∧
    (setMaintenance e on nw s ids).w.res = s.w.res.map (fun r => if r.id ∈ ids then mRow on r else r) ∧
    SameRest s.w (setMaintenance e on nw s ids).w := by
  intro ids
  induction ids with
  | nil =>
    intro s hr _ _ _
    refine ⟨hr, ?_, rfl, rfl, rfl⟩
    have : ∀ r ∈ s.w.res, (if r.id ∈ ([] : List Nat) then mRow on r else r) = r := by intro r _; rw [if_neg List.not_mem_nil]
    rw [List.map_congr_left this, List.map_id']; rfl
  | cons i ids ih =>
    intro s hr hu hn hk
    obtain ⟨g1, g2, g3⟩ := maintain_one e hc on nw s i hr hu hn (hk i List.mem_cons_self)
    have hid : (maintainOne e on nw s i).w.res.map Res.id = s.w.res.map Res.id := by
      rw [g2, List.map_map]
      apply List.map_congr_left
      intro r _
      show (if r.id = i then mRow on r else r).id = r.id
      split
      · exact mRow_id on r
      · rfl
    obtain ⟨k1, k2, k3⟩ := ih (maintainOne e on nw s i) g1 (by rw [hid]; exact hu)
      (by
        intro r hr
        rw [g2] at hr
        obtain ⟨x, hx, he⟩ := List.mem_map.1 hr
        rw [← he]
        by_cases h : x.id = i
        · rw [if_pos h]; exact mRow_numbers on x (hn x hx)
        · rw [if_neg h]; exact hn x hx)
      (by
        intro j hj
        obtain ⟨r, hr, he⟩ := hk j (List.mem_cons_of_mem _ hj)
        have : j ∈ (maintainOne e on nw s i).w.res.map Res.id := by rw [hid]; exact List.mem_map.2 ⟨r, hr, he⟩
        exact List.mem_map.1 this)
    have e1 : setMaintenance e on nw s (i :: ids) = setMaintenance e on nw (maintainOne e on nw s i) ids := rfl
    rw [e1]
    refine ⟨k1, ?_, k3.1.trans g3.1, k3.2.1.trans g3.2.1, k3.2.2.trans g3.2.2⟩
    rw [k2, g2, List.map_map]
    apply List.map_congr_left
    intro r _
    show (if (if r.id = i then mRow on r else r).id ∈ ids then mRow on (if r.id = i then mRow on r else r) else (if r.id = i then mRow on r else r)) = _
    by_cases h : r.id = i
    · rw [if_pos h, if_pos (List.mem_cons.2 (Or.inl h)), mRow_twice]
      split <;> rfl
    · rw [if_neg h]
      by_cases h2 : r.id ∈ ids
      · rw [if_pos h2, if_pos (List.mem_cons_of_mem _ h2)]
      · rw [if_neg h2, if_neg (by simp [h, h2])]

theorem run_maintenance (e : World) (hc : HasCols e) (w : RDB) (ids : List Nat) (m : String) (hm : m = "on" ∨ m = "off") (nw : Bool) (hi : ids ≠ [])
    (hu : (w.res.map Res.id).Nodup) (hn : ∀ r ∈ w.res, Numbers r) (hk : ∀ i ∈ ids, ∃ r ∈ w.res, r.id = i) :
    (run e { resources := ids, maintenance := some m, noWait := nw } w).raised = false ∧
    (run e { resources := ids, maintenance := some m, noWait := nw } w).w.res = w.res.map (fun r => if r.id ∈ ids then mRow (m == "on") r else r) ∧
    SameRest w (run e { resources := ids, maintenance := some m, noWait := nw } w).w := by
  obtain ⟨g1, g2, g3⟩ := maintain_all e hc (m == "on") nw ids { w := w } rfl hu hn hk
  have hb : badArgs { resources := ids, maintenance := some m, noWait := nw } = false := by
    unfold badArgs
    rcases hm with rfl | rfl <;> simp
  have hrun : run e { resources := ids, maintenance := some m, noWait := nw } w =
      (let s := setMaintenance e (m == "on") nw { w := w } ids; ⟨s.w, ⟨s.exits, 0⟩, s.sent, s.waited, s.raised⟩) := by
    unfold run
    rw [if_neg (by rw [hb]; decide)]
    have hch : change e { resources := ids, maintenance := some m, noWait := nw } ids [e.localHost] { w := w } = setMaintenance e (m == "on") nw { w := w } ids := by
      unfold change
      rw [if_pos hi]
    show finish e _ ids [e.localHost] [] (change e _ ids [e.localHost] { w := w }) = _
    rw [hch, finish_none e _ ids _ _ rfl]
  rw [hrun]
  exact ⟨g1, g2, g3⟩

/-- **C82, maintenance.** `-m on` on existing resources asks for the state `Absent`, forbids their wake-up (`available_upto` 0) and keeps aside the date `u`
they had (or had before a previous `-m on`); nothing else changes. -/
theorem maintenance_on (e : World) (hc : HasCols e) (w : RDB) (ids : List Nat) (nw : Bool) (hi : ids ≠ []) (hu : (w.res.map Res.id).Nodup)
    (hn : ∀ r ∈ w.res, Numbers r) (hk : ∀ i ∈ ids, ∃ r ∈ w.res, r.id = i) :
    (run e { resources := ids, maintenance := some "on", noWait := nw } w).raised = false ∧
    SameRest w (run e { resources := ids, maintenance := some "on", noWait := nw } w).w ∧
    ∃ f, (run e { resources := ids, maintenance := some "on", noWait := nw } w).w.res = w.res.map f ∧ ∀ r ∈ w.res, (r.id ∉ ids → f r = r) ∧
      (r.id ∈ ids → (f r).next = "Absent" ∧ (f r).prop "available_upto" = some "0" ∧
        (∀ u, u ≠ 0 → Keeps u r → (f r).prop "last_available_upto" = some (intText u)) ∧
        (f r).id = r.id ∧ (f r).host = r.host ∧ (f r).state = r.state ∧
        ∀ q, q ≠ "available_upto" → q ≠ "last_available_upto" → (f r).prop q = r.prop q) := by
  obtain ⟨g1, g2, g3⟩ := run_maintenance e hc w ids "on" (Or.inl rfl) nw hi hu hn hk
  refine ⟨g1, g3, _, g2, ?_⟩
  intro r _
  refine ⟨fun h => if_neg h, fun h => ?_⟩
  rw [if_pos h]
  have hl : (onRow r).prop "last_available_upto" = if r.prop "available_upto" ≠ some "0" then r.prop "available_upto" else r.prop "last_available_upto" := rfl
  refine ⟨rfl, rfl, ?_, rfl, rfl, rfl, ?_⟩
  · intro u hu hk
    show (onRow r).prop "last_available_upto" = _
    rw [hl]
    have hne : some (intText u) ≠ some "0" := by
      rw [← intText_zero]
      intro h
      exact hu (intText_inj (Option.some.inj h))
    rcases hk with h1 | ⟨h1, h2⟩
    · rw [h1, if_pos hne]
    · rw [if_neg (fun h => h h1), h2]
  · intro q h1 h2
    show (if q = "available_upto" then some "0" else if q = "last_available_upto" then _ else r.prop q) = _
    rw [if_neg h1, if_neg h2]

/-- **C82, end of the maintenance.** `-m off` asks for the state `Alive` and gives back the date kept aside. -/
theorem maintenance_off (e : World) (hc : HasCols e) (w : RDB) (ids : List Nat) (nw : Bool) (hi : ids ≠ []) (hu : (w.res.map Res.id).Nodup)
    (hn : ∀ r ∈ w.res, Numbers r) (hk : ∀ i ∈ ids, ∃ r ∈ w.res, r.id = i) :
    (run e { resources := ids, maintenance := some "off", noWait := nw } w).raised = false ∧
    SameRest w (run e { resources := ids, maintenance := some "off", noWait := nw } w).w ∧
    ∃ f, (run e { resources := ids, maintenance := some "off", noWait := nw } w).w.res = w.res.map f ∧ ∀ r ∈ w.res, (r.id ∉ ids → f r = r) ∧
      (r.id ∈ ids → (f r).next = "Alive" ∧
        (∀ u, u ≠ 0 → r.prop "last_available_upto" = some (intText u) → (f r).prop "available_upto" = some (intText u)) ∧
        (f r).id = r.id ∧ (f r).host = r.host ∧ (f r).state = r.state ∧ ∀ q, q ≠ "available_upto" → (f r).prop q = r.prop q) := by
  obtain ⟨g1, g2, g3⟩ := run_maintenance e hc w ids "off" (Or.inr rfl) nw hi hu hn hk
  refine ⟨g1, g3, _, g2, ?_⟩
  intro r _
  refine ⟨fun h => if_neg h, fun h => ?_⟩
  rw [if_pos h]
  refine ⟨rfl, ?_, rfl, rfl, rfl, ?_⟩
  · intro u hu hk
    show (offRow r).prop "available_upto" = _
    rw [offRow_avail, hk, if_pos (text_ne hu)]
  · intro q h1
    show (if q = "available_upto" ∧ _ then _ else r.prop q) = _
    rw [if_neg (fun h => h1 h.1)]

/-- **C82, round trip.** After `-m on` then `-m off`, a resource available until `u` (not 0) is so again. -/
theorem maintenance_round_trip (e1 e2 : World) (hc1 : HasCols e1) (hc2 : HasCols e2) (w : RDB) (ids : List Nat) (nw : Bool) (hi : ids ≠ [])
    (hu : (w.res.map Res.id).Nodup) (hn : ∀ r ∈ w.res, Numbers r) (hk : ∀ i ∈ ids, ∃ r ∈ w.res, r.id = i) :
    ∃ f, (run e2 { resources := ids, maintenance := some "off", noWait := nw } (run e1 { resources := ids, maintenance := some "on", noWait := nw } w).w).w.res = w.res.map f ∧
      ∀ r ∈ w.res, (r.id ∉ ids → f r = r) ∧
      (r.id ∈ ids → ∀ u : Int, u ≠ 0 → r.prop "available_upto" = some (intText u) → (f r).next = "Alive" ∧
        ∀ q, q ≠ "last_available_upto" → (f r).prop q = r.prop q) := by
  obtain ⟨g1, g2, g3⟩ := run_maintenance e1 hc1 w ids "on" (Or.inl rfl) nw hi hu hn hk
  have hid : (run e1 { resources := ids, maintenance := some "on", noWait := nw } w).w.res.map Res.id = w.res.map Res.id := by
    rw [g2, List.map_map]
    apply List.map_congr_left
    intro r _
    show (if r.id ∈ ids then mRow _ r else r).id = r.id
    split
    · exact mRow_id _ r
    · rfl
  obtain ⟨k1, k2, k3⟩ := run_maintenance e2 hc2 (run e1 { resources := ids, maintenance := some "on", noWait := nw } w).w ids "off" (Or.inr rfl) nw hi
    (by rw [hid]; exact hu)
    (by
      intro r hr
      rw [g2] at hr
      obtain ⟨x, hx, he⟩ := List.mem_map.1 hr
      rw [← he]
      by_cases h : x.id ∈ ids
      · rw [if_pos h]; exact mRow_numbers _ x (hn x hx)
      · rw [if_neg h]; exact hn x hx)
    (by
      intro j hj
      obtain ⟨r, hr, he⟩ := hk j hj
      have : j ∈ (run e1 { resources := ids, maintenance := some "on", noWait := nw } w).w.res.map Res.id := by rw [hid]; exact List.mem_map.2 ⟨r, hr, he⟩
      exact List.mem_map.1 this)
  refine ⟨fun r => if r.id ∈ ids then offRow (onRow r) else r, ?_, ?_⟩
  · rw [k2, g2, List.map_map]
    apply List.map_congr_left
    intro r _
    show (if (if r.id ∈ ids then onRow r else r).id ∈ ids then offRow (if r.id ∈ ids then onRow r else r) else (if r.id ∈ ids then onRow r else r)) = _
    by_cases h : r.id ∈ ids
    · rw [if_pos h, if_pos h]
      show (if r.id ∈ ids then offRow (onRow r) else onRow r) = _
      rw [if_pos h]
    · rw [if_neg h, if_neg h, if_neg h]
  · intro r _
    refine ⟨fun h => if_neg h, ?_⟩
    intro h u hu0 hup
    dsimp only
    rw [if_pos h]
    refine ⟨rfl, ?_⟩
    have hne : some (intText u) ≠ some "0" := by
      rw [← intText_zero]
      intro h
      exact hu0 (intText_inj (Option.some.inj h))
    have hl : (onRow r).prop "last_available_upto" = some (intText u) := by
      show (if r.prop "available_upto" ≠ some "0" then r.prop "available_upto" else r.prop "last_available_upto") = _
      rw [hup, if_pos hne]
    intro q hq
    show (if q = "available_upto" ∧ (onRow r).prop "last_available_upto" ≠ some "0" then (onRow r).prop "last_available_upto" else (onRow r).prop q) = _
    rw [hl]
    by_cases h2 : q = "available_upto"
    · rw [if_pos ⟨h2, hne⟩, h2, hup]
    · rw [if_neg (fun h => h2 h.1)]
      show (if q = "available_upto" then some "0" else if q = "last_available_upto" then _ else r.prop q) = _
      rw [if_neg h2, if_neg hq]

/-- **C82, maintenance of hosts.** It is the maintenance of all their resources. -/
theorem maintenance_by_hosts (e : World) (w : RDB) (hosts : List String) (m : String) (hm : m = "on" ∨ m = "off") (nw : Bool) (hi : hosts ≠ [])
    (ids : List Nat) (hids : ids = hosts.flatMap (fun h => (w.res.filter (fun r => r.host == h)).map Res.id)) (hne : ids ≠ []) :
    run e { hosts := hosts, maintenance := some m, noWait := nw } w = run e { resources := ids, maintenance := some m, noWait := nw } w := by
  have hb : badArgs { resources := ids, maintenance := some m, noWait := nw } = false := by
    unfold badArgs
    rcases hm with rfl | rfl <;> simp
  have hb2 : badArgs { hosts := hosts, maintenance := some m, noWait := nw } = false := by
    unfold badArgs
    rcases hm with rfl | rfl <;> simp
  have hrun : run e { resources := ids, maintenance := some m, noWait := nw } w =
      (let s := setMaintenance e (m == "on") nw { w := w } ids; ⟨s.w, ⟨s.exits, 0⟩, s.sent, s.waited, s.raised⟩) := by
    unfold run
    rw [if_neg (by rw [hb]; decide)]
    have hch : change e { resources := ids, maintenance := some m, noWait := nw } ids [e.localHost] { w := w } = setMaintenance e (m == "on") nw { w := w } ids := by
      unfold change
      rw [if_pos hne]
    show finish e _ ids [e.localHost] [] (change e _ ids [e.localHost] { w := w }) = _
    rw [hch, finish_none e _ ids _ _ rfl]
  have hrun2 : run e { hosts := hosts, maintenance := some m, noWait := nw } w =
      (let s := setMaintenance e (m == "on") nw { w := w } ids; ⟨s.w, ⟨s.exits, 0⟩, s.sent, s.waited, s.raised⟩) := by
    unfold run
    rw [if_neg (by rw [hb2]; decide)]
    have hh : (if hosts ++ ([] : List String) = [] then [e.localHost] else hosts ++ []) = hosts := by
      rw [List.append_nil, if_neg hi]
    have hch : change e { hosts := hosts, maintenance := some m, noWait := nw } [] hosts { w := w } = setMaintenance e (m == "on") nw { w := w } ids := by
      rw [hids]; rfl
    show finish e _ [] (if hosts ++ ([] : List String) = [] then [e.localHost] else hosts ++ []) [] (change e _ [] (if hosts ++ ([] : List String) = [] then [e.localHost] else hosts ++ []) { w := w }) = _
    rw [hh, hch, finish_none e _ [] _ _ rfl]
  rw [hrun, hrun2]

/-- **C82, drain.** `-d on` writes YES and `-d off` writes NO in the property `drain` of the resources selected, nothing else changes. -/
theorem drain_by_ids (e : World) (w : RDB) (ids : List Nat) (d : String) (hd : d = "on" ∨ d = "off") (hi : ids ≠ []) (hc : "drain" ∈ e.cols)
    (hu : (w.res.map Res.id).Nodup) :
    (run e { resources := ids, drain := some d } w).w.res =
      w.res.map (fun r => if r.id ∈ ids then { r with prop := fun q => if q = "drain" then some (if d = "on" then "YES" else "NO") else r.prop q } else r) ∧
    SameRest w (run e { resources := ids, drain := some d } w).w ∧ (run e { resources := ids, drain := some d } w).raised = false ∧
    (run e { resources := ids, drain := some d } w).sent = ["Term"] := by
  have hb : badArgs { resources := ids, drain := some d } = false := by
    unfold badArgs
    rcases hd with rfl | rfl <;> simp
  have hrun : run e { resources := ids, drain := some d } w = finish e { resources := ids, drain := some d } ids [e.localHost] [] { w := w } := by
    unfold run
    rw [if_neg (by rw [hb]; decide)]
    have hch : change e { resources := ids, drain := some d } ids [e.localHost] { w := w } = { w := w } := by
      unfold change
      rw [if_pos hi]
    show finish e _ ids [e.localHost] [] (change e _ ids [e.localHost] { w := w }) = _
    rw [hch]
  have hpn : ∀ v, v = "YES" ∨ v = "NO" → parseProp ("drain" ++ "=" ++ v) = some ("drain", v) := by
    rintro v (rfl | rfl) <;> decide +kernel
  have ha : ∃ v, v = (if d = "on" then "YES" else "NO") ∧ (v = "YES" ∨ v = "NO") ∧ allProps { resources := ids, drain := some d } = ["drain" ++ "=" ++ v] := by
    rcases hd with rfl | rfl
    · exact ⟨"YES", rfl, Or.inl rfl, rfl⟩
    · exact ⟨"NO", rfl, Or.inr rfl, rfl⟩
  obtain ⟨v, hv, hv2, ha⟩ := ha
  have hst : Storable e ("drain" ++ "=" ++ v) := ⟨_, _, hpn v hv2, by decide, hc, by decide, by rfl⟩
  have hok : ∀ p ∈ ["drain" ++ "=" ++ v], Refused p ∨ Storable e p := by
    intro p hp; rw [List.mem_singleton] at hp; rw [hp]; exact Or.inr hst
  have hw : written ["drain" ++ "=" ++ v] = [("drain", v)] := by
    unfold written
    rw [List.filterMap_cons, hpn v hv2]; rfl
  obtain ⟨g1, g2, _, _, _, g7, g8⟩ := finish_props e { resources := ids, drain := some d } ids [e.localHost] [] { w := w } rfl hu
    (by rw [ha]; simp) (by rw [ha]; exact hok) (by
      rw [ha, if_pos hi]
      intro x hx r v
      exact byIds_setCol ids r x.1 v (written_mem hok x hx).1)
  rw [ha, hw] at g7
  rw [hrun]
  refine ⟨?_, g8, g1, g2⟩
  rw [g7]
  apply List.map_congr_left
  intro r _
  rw [if_pos hi]
  by_cases h : r.id ∈ ids
  · rw [if_pos h, if_pos (by unfold byIds; exact decide_eq_true h), ← hv]
    show setCol r "drain" v = _
    exact setCol_prop r "drain" v (by decide) (by decide) (by decide)
  · rw [if_neg h, if_neg (by unfold byIds; simpa using h)]

/-- C82 (violated). A resource whose `available_upto` is 0 when it is put in maintenance does not get it back: it gets the date of an older maintenance. -/
theorem maintenance_old_date_violated (e1 e2 : World) (hc1 : HasCols e1) (hc2 : HasCols e2) (w : RDB) (r : Res) (u : Int) (hr : w.res = [r])
    (h0 : r.prop "available_upto" = some "0") (h1 : r.prop "last_available_upto" = some (intText u)) (hu : u ≠ 0) :
    ∃ r', (run e2 { resources := [r.id], maintenance := some "off" } (run e1 { resources := [r.id], maintenance := some "on" } w).w).w.res = [r'] ∧
      r'.prop "available_upto" = some (intText u) := by
  have hn : ∀ x ∈ w.res, Numbers x := by
    intro x hx; rw [hr, List.mem_singleton] at hx; rw [hx]; exact ⟨0, u, by rw [h0, intText_zero], h1⟩
  obtain ⟨_, g2, _⟩ := run_maintenance e1 hc1 w [r.id] "on" (Or.inl rfl) false (by simp) (by rw [hr]; simp) hn
    (by intro i hi; rw [List.mem_singleton] at hi; exact ⟨r, by rw [hr]; simp, hi.symm⟩)
  have g2' : (run e1 { resources := [r.id], maintenance := some "on" } w).w.res = [onRow r] := by
    rw [g2, hr]
    show [if r.id ∈ [r.id] then onRow r else r] = _
    rw [if_pos (by simp)]
  obtain ⟨_, k2, _⟩ := run_maintenance e2 hc2 (run e1 { resources := [r.id], maintenance := some "on" } w).w [r.id] "off" (Or.inr rfl) false (by simp)
    (by rw [g2']; simp)
    (by intro x hx; rw [g2', List.mem_singleton] at hx; rw [hx]; exact mRow_numbers true r (hn r (by rw [hr]; simp)))
    (by intro i hi; rw [List.mem_singleton] at hi; exact ⟨onRow r, by rw [g2']; simp, hi.symm⟩)
  refine ⟨offRow (onRow r), ?_, ?_⟩
  · rw [k2, g2']
    show [if r.id ∈ [r.id] then offRow (onRow r) else onRow r] = _
    rw [if_pos (by simp)]
  · have hl : (onRow r).prop "last_available_upto" = some (intText u) := by rw [onRow_last, if_neg (fun h => h h0), h1]
    rw [offRow_avail, hl, if_pos (text_ne hu)]

/-- C82 (violated). The two columns are written and committed one after the other, the date being erased before it is kept aside. If the command is stopped between
them, the same command given again then `-m off` leave the resource with `available_upto` 0. -/
theorem maintenance_crash_violated (e1 e2 e3 : World) (hc1 : HasCols e1) (hc2 : HasCols e2) (hc3 : HasCols e3) (w w1 : RDB) (r : Res) (u : Int) (hr : w.res = [r])
    (_ : r.prop "available_upto" = some (intText u)) (h1 : r.prop "last_available_upto" = some "0") (_ : u ≠ 0)
    (hw1 : setProperty e1 (logMaintenance w e1.now r.id true) (byIds [r.id]) "available_upto" "0" = some w1) :
    ∃ r', (run e3 { resources := [r.id], maintenance := some "off" } (run e2 { resources := [r.id], maintenance := some "on" } w1).w).w.res = [r'] ∧
      r'.prop "available_upto" = some "0" ∧ r'.prop "last_available_upto" = some "0" := by
  have hs : setCol r "available_upto" "0" = { r with prop := fun q => if q = "available_upto" then some "0" else r.prop q } :=
    setCol_prop r "available_upto" "0" (by decide) (by decide) (by decide)
  have hid : (setCol r "available_upto" "0").id = r.id := by rw [hs]
  have hp0 : (setCol r "available_upto" "0").prop "available_upto" = some "0" := by rw [hs]; rfl
  have hp1 : (setCol r "available_upto" "0").prop "last_available_upto" = some "0" := by
    rw [hs]
    show (if "last_available_upto" = "available_upto" then some "0" else r.prop "last_available_upto") = _
    rw [if_neg (by decide), h1]
  have hr1 : w1.res = [setCol r "available_upto" "0"] := by
    obtain ⟨w', g1, g2, _⟩ := setProperty_ok e1 (logMaintenance w e1.now r.id true) (byIds [r.id]) "available_upto" "0" "0"
      (by show (w.res.map Res.id).Nodup; rw [hr]; simp) hc1.1 (by decide) (by decide)
    rw [hw1] at g1
    rw [Option.some.inj g1, g2]
    show w.res.map _ = _
    rw [hr]
    show [if byIds [r.id] r = true then setCol r "available_upto" "0" else r] = _
    rw [if_pos ((byIds_one _ _).2 rfl)]
  generalize setCol r "available_upto" "0" = r1 at hid hp0 hp1 hr1
  rw [← hid]
  have hn : ∀ x ∈ w1.res, Numbers x := by
    intro x hx; rw [hr1, List.mem_singleton] at hx; rw [hx]; exact ⟨0, 0, by rw [hp0, intText_zero], by rw [hp1, intText_zero]⟩
  obtain ⟨_, g2, _⟩ := run_maintenance e2 hc2 w1 [r1.id] "on" (Or.inl rfl) false (by simp) (by rw [hr1]; simp) hn
    (by intro i hi; rw [List.mem_singleton] at hi; exact ⟨r1, by rw [hr1]; simp, hi.symm⟩)
  have g2' : (run e2 { resources := [r1.id], maintenance := some "on" } w1).w.res = [onRow r1] := by
    rw [g2, hr1]
    show [if r1.id ∈ [r1.id] then onRow r1 else r1] = _
    rw [if_pos (by simp)]
  obtain ⟨_, k2, _⟩ := run_maintenance e3 hc3 (run e2 { resources := [r1.id], maintenance := some "on" } w1).w [r1.id] "off" (Or.inr rfl) false (by simp)
    (by rw [g2']; simp)
    (by intro x hx; rw [g2', List.mem_singleton] at hx; rw [hx]; exact mRow_numbers true r1 (hn r1 (by rw [hr1]; simp)))
    (by intro i hi; rw [List.mem_singleton] at hi; exact ⟨onRow r1, by rw [g2']; simp, hi.symm⟩)
  have hl : (onRow r1).prop "last_available_upto" = some "0" := by rw [onRow_last, if_neg (fun h => h hp0), hp1]
  refine ⟨offRow (onRow r1), ?_, ?_, ?_⟩
  · rw [k2, g2']
    show [if r1.id ∈ [r1.id] then offRow (onRow r1) else onRow r1] = _
    rw [if_pos (by simp)]
  · rw [offRow_avail, hl, if_neg (fun h => h rfl), onRow_avail]
  · rw [offRow_other _ _ (by decide), hl]

/-- C82 (violated). The maintenance of a resource that does not exist ends the command by an exception, the following resources being left. -/
theorem maintenance_unknown_violated (e : World) (w : RDB) (i : Nat) (ids : List Nat) (h : ∀ r ∈ w.res, r.id ≠ i) :
    (run e { resources := i :: ids, maintenance := some "on" } w).raised = true ∧ (run e { resources := i :: ids, maintenance := some "on" } w).w = w := by
  have hf : w.res.find? (fun r => r.id == i) = none := List.find?_eq_none.2 (fun r hr hb => h r hr (beq_iff_eq.1 hb))
  have hst : ∀ (l : List Nat) (s : St), s.raised = true → setMaintenance e true false s l = s := by
    intro l
    induction l with
    | nil => intro s _; rfl
    | cons x xs ih =>
      intro s hs
      show setMaintenance e true false (maintainOne e true false s x) xs = s
      have : maintainOne e true false s x = s := by unfold maintainOne; rw [if_pos hs]
      rw [this, ih s hs]
  have hm : setMaintenance e true false { w := w } (i :: ids) = { w := w, raised := true } := by
    show setMaintenance e true false (maintainOne e true false { w := w } i) ids = _
    have : maintainOne e true false { w := w } i = { w := w, raised := true } := by
      unfold maintainOne
      rw [if_neg Bool.false_ne_true]
      dsimp only
      rw [hf]
    rw [this, hst ids _ rfl]
  have hrun : run e { resources := i :: ids, maintenance := some "on" } w = ⟨w, ⟨[], 0⟩, [], [], true⟩ := by
    unfold run
    show finish e _ (i :: ids) [e.localHost] [] (setMaintenance e true false { w := w } (i :: ids)) = _
    rw [hm, finish_none e _ _ _ _ rfl]
  rw [hrun]
  exact ⟨rfl, rfl⟩

/-! ## The identifier -/

/-- C82 (violated). The test of the fields of the system knows the name `resource_id` of the column, while the attribute is `id`: the identifier of a resource can
be changed, the assignments and the jobs keeping the old one. -/
theorem id_rewritten_violated (e : World) (w : RDB) (r : Res) (n : Nat) (hc : "id" ∈ e.cols) (hu : (w.res.map Res.id).Nodup) (hr : r ∈ w.res)
    (hn : ∀ x ∈ w.res, x.id ≠ n) :
    (run e { resources := [r.id], props := ["id=" ++ intText n] } w).w.res = w.res.map (fun x => if x.id = r.id then { x with id := n } else x) ∧
    (run e { resources := [r.id], props := ["id=" ++ intText n] } w).raised = false ∧
    SameRest w (run e { resources := [r.id], props := ["id=" ++ intText n] } w).w := by
  have hp : parseProp ("id=" ++ intText n) = some ("id", intText n) :=
    parse_pair "id" (intText n) (by decide +kernel) (by unfold intText; rw [String.toList_ofList]; exact str_plain n) (by decide +kernel)
  have hcol : ∀ x ∈ w.res, col x "id" ≠ some (intText n) := by
    intro x hx h
    exact hn x hx (Int.ofNat.inj (intText_inj (Option.some.inj h)))
  have hmem : ∀ x ∈ w.res, (x.id ∈ targets w (byIds [r.id]) "id" (intText n) ↔ x.id = r.id) := by
    intro x hx
    rw [mem_targets hu hx, byIds_one]
    exact ⟨fun h => h.1, fun h => ⟨h, hcol x hx⟩⟩
  have hne : targets w (byIds [r.id]) "id" (intText n) ≠ [] := by
    intro h
    have := (hmem r hr).2 rfl
    rw [h] at this; cases this
  have hlen : ¬ (1 < (targets w (byIds [r.id]) "id" (intText n)).length) := by
    intro h
    have hnd : (targets w (byIds [r.id]) "id" (intText n)).Nodup := by
      unfold targets
      exact List.Nodup.sublist (List.Sublist.map _ List.filter_sublist) hu
    match ht : targets w (byIds [r.id]) "id" (intText n) with
    | [] => rw [ht] at h; exact absurd h (by decide)
    | [_] => rw [ht] at h; exact absurd h (Nat.lt_irrefl 1)
    | a :: b :: l =>
      have all : ∀ c ∈ targets w (byIds [r.id]) "id" (intText n), c = r.id := by
        intro c hc
        have hc2 := hc
        unfold targets at hc2
        obtain ⟨x, hx, hxe⟩ := List.mem_map.1 hc2
        rw [← hxe] at hc ⊢
        exact (hmem x (List.mem_filter.1 hx).1).1 hc
      rw [ht] at all hnd
      have h1 := all a (by simp)
      have h2 := all b (by simp)
      rw [h1, h2] at hnd
      simp at hnd
  have hany : w.res.any (fun x => intText x.id == intText n) = false := by
    rw [List.any_eq_false]
    intro x hx hb
    exact hcol x hx (congrArg some (beq_iff_eq.1 hb))
  have hset : ∃ w', setProperty e w (byIds [r.id]) "id" (intText n) = some w' ∧
      w'.res = w.res.map (fun x => if x.id = r.id then { x with id := n } else x) ∧ SameRest w w' := by
    unfold setProperty
    rw [if_neg (fun h => h hc), norm_int]
    dsimp only
    rw [if_neg hne, if_neg (fun h => by rcases h.2 with h | h; exact hlen h; rw [hany] at h; cases h)]
    refine ⟨_, rfl, ?_, rfl, rfl, rfl⟩
    show w.res.map (fun x => if decide (x.id ∈ targets w (byIds [r.id]) "id" (intText n)) = true then setCol x "id" (intText n) else x) = _
    apply List.map_congr_left
    intro x hx
    by_cases h : x.id = r.id
    · rw [if_pos (decide_eq_true ((hmem x hx).2 h)), if_pos h]
      unfold setCol
      rw [if_pos rfl]
      have : ((pyInt (intText n).toList).getD 0).toNat = n := by
        unfold intText; rw [String.toList_ofList, pyInt_str]; rfl
      rw [this]
    · rw [if_neg (fun hd => h ((hmem x hx).1 (of_decide_eq_true hd))), if_neg h]
  obtain ⟨w', q1, q2, q3⟩ := hset
  have hstep : setProperties e (byIds [r.id]) { w := w } ["id=" ++ intText n] = { w := w', exits := [0, 0] } := by
    show propStep e (byIds [r.id]) { w := w } ("id=" ++ intText n) = _
    unfold propStep
    rw [if_neg Bool.false_ne_true, hp]
    dsimp only
    rw [if_neg (by decide), q1]; rfl
  have hrun : run e { resources := [r.id], props := ["id=" ++ intText n] } w = ⟨w', ⟨[0, 0], 0⟩, ["Term"], [], false⟩ := by
    have h1 : run e { resources := [r.id], props := ["id=" ++ intText n] } w =
        finish e { resources := [r.id], props := ["id=" ++ intText n] } [r.id] [e.localHost] [] { w := w } := rfl
    have h2 : finish e { resources := [r.id], props := ["id=" ++ intText n] } [r.id] [e.localHost] [] { w := w } =
        (let s' := setProperties e (byIds [r.id]) { w := w } ["id=" ++ intText n]
         let s1 := if s'.raised then s' else s'.tell "Term"
         let s2 := if s1.raised then s1 else s1
         ⟨s2.w, ⟨s2.exits, 0⟩, s2.sent, s2.waited, s2.raised⟩) := rfl
    rw [h1, h2, hstep]; rfl
  rw [hrun]
  exact ⟨q2, rfl, q3⟩

/-! ## Additions -/

theorem addHosts_spec (e : World) (st : String) : ∀ (hs : List String) (n : Nat) (w : RDB),
    (addHosts e st hs n w).2 = n + hs.length ∧
    (addHosts e st hs n w).1.res = w.res ++ (hs.zipIdx n).map (fun x => { id := x.2, host := x.1, state := st }) ∧
    SameRest w (addHosts e st hs n w).1 := by
  intro hs
  induction hs with
  | nil => intro n w; exact ⟨rfl, (List.append_nil _).symm, rfl, rfl, rfl⟩
  | cons h hs ih =>
    intro n w
    obtain ⟨g1, g2, g3⟩ := ih (n + 1) (addRes w e.now n h st)
    refine ⟨?_, ?_, g3⟩
    · show (addHosts e st hs (n + 1) (addRes w e.now n h st)).2 = _
      rw [g1, List.length_cons]; omega
    · show (addHosts e st hs (n + 1) (addRes w e.now n h st)).1.res = _
      rw [g2, List.zipIdx_cons, List.map_cons]
      show (w.res ++ [_]) ++ _ = _
      rw [List.append_assoc]; rfl

/-- **C82, addition.** `-a` adds one resource of the state asked (Alive by default) for each host, in the order given, with fresh identifiers. -/
theorem add_exact (e : World) (w : RDB) (hosts : List String) (st : Option String) (hi : hosts ≠ []) (hst : ∀ x, st = some x → Askable x) :
    (run e { hosts := hosts, add := true, state := st } w).w.res =
      w.res ++ (hosts.zipIdx e.fresh).map (fun x => { id := x.2, host := x.1, state := st.getD "Alive" }) ∧
    (run e { hosts := hosts, add := true, state := st } w).sent = ["ChState", "Term"] ∧
    (exitValue (run e { hosts := hosts, add := true, state := st } w).ret).1 = 0 := by
  have hb : badArgs { hosts := hosts, add := true, state := st } = false := by
    unfold badArgs
    cases st with
    | none => simp
    | some x => rcases hst x rfl with rfl | rfl | rfl <;> simp
  have hh : (if hosts ++ ([] : List String) = [] then [e.localHost] else hosts ++ []) = hosts := by
    rw [List.append_nil, if_neg hi]
  have hrun : run e { hosts := hosts, add := true, state := st } w =
      ⟨(addHosts e (st.getD "Alive") hosts e.fresh w).1, ⟨hosts.map (fun _ => 0), 0⟩, ["ChState", "Term"], [], false⟩ := by
    unfold run
    rw [if_neg (by rw [hb]; decide)]
    show finish e _ [(addHosts e (st.getD "Alive") (if hosts ++ ([] : List String) = [] then [e.localHost] else hosts ++ []) e.fresh w).2 - 1]
      (if hosts ++ ([] : List String) = [] then [e.localHost] else hosts ++ []) ["ChState", "Term"]
      { w := (addHosts e (st.getD "Alive") (if hosts ++ ([] : List String) = [] then [e.localHost] else hosts ++ []) e.fresh w).1,
        exits := (if hosts ++ ([] : List String) = [] then [e.localHost] else hosts ++ []).map (fun _ => 0) } = _
    rw [hh]
    rfl
  rw [hrun]
  refine ⟨(addHosts_spec e _ hosts e.fresh w).2.1, rfl, (Cli.exit_spec _).1.2 ?_⟩
  intro x hx
  obtain ⟨_, _, h⟩ := List.mem_map.1 hx
  exact h.symm

/-- C82 (violated). The properties given with an addition of several hosts are written on the last new resource only. -/
theorem add_properties_violated (e : World) (w : RDB) (h1 h2 : String) (ps : List String) (hne : ps ≠ []) (hw : ∀ r ∈ w.res, r.id < e.fresh)
    (hu : (w.res.map Res.id).Nodup) (hok : ∀ p ∈ ps, Refused p ∨ Storable e p) :
    (run e { hosts := [h1, h2], add := true, props := ps } w).raised = false ∧
    { id := e.fresh, host := h1, state := "Alive" } ∈ (run e { hosts := [h1, h2], add := true, props := ps } w).w.res ∧
    ∃ r2 ∈ (run e { hosts := [h1, h2], add := true, props := ps } w).w.res, r2.id = e.fresh + 1 ∧
      ∀ p, col r2 p = lastOf (written ps) p (col { id := e.fresh + 1, host := h2, state := "Alive" } p) := by
  have hps : ps.isEmpty = false := by cases ps <;> simp_all
  have hrun : run e { hosts := [h1, h2], add := true, props := ps } w =
      finish e { hosts := [h1, h2], add := true, props := ps } [e.fresh + 1] [h1, h2] ["ChState", "Term"]
        { w := (addHosts e "Alive" [h1, h2] e.fresh w).1, exits := [0, 0] } := by
    unfold run
    rw [if_neg (by unfold badArgs; rw [hps]; simp)]
    rfl
  have hres : (addHosts e "Alive" [h1, h2] e.fresh w).1.res =
      w.res ++ [{ id := e.fresh, host := h1, state := "Alive" }, { id := e.fresh + 1, host := h2, state := "Alive" }] :=
    (addHosts_spec e "Alive" [h1, h2] e.fresh w).2.1
  have ha : allProps { hosts := [h1, h2], add := true, props := ps } = ps := List.append_nil _
  have hnd : ((addHosts e "Alive" [h1, h2] e.fresh w).1.res.map Res.id).Nodup := by
    rw [hres, List.map_append, List.nodup_append]
    refine ⟨hu, by simp, ?_⟩
    intro a hm b hb
    obtain ⟨x, hx, rfl⟩ := List.mem_map.1 hm
    have := hw x hx
    simp only [List.map_cons, List.map_nil, List.mem_cons, List.not_mem_nil, or_false] at hb
    omega
  obtain ⟨g1, _, _, _, _, g7, _⟩ := finish_props e { hosts := [h1, h2], add := true, props := ps } [e.fresh + 1] [h1, h2] ["ChState", "Term"]
    { w := (addHosts e "Alive" [h1, h2] e.fresh w).1, exits := [0, 0] } rfl hnd
    (by rw [ha]; exact hne) (by rw [ha]; exact hok) (by
      rw [ha, if_pos (by simp)]
      intro x hx r v
      exact byIds_setCol _ r x.1 v (written_mem hok x hx).1)
  rw [ha] at g7
  rw [hrun]
  refine ⟨g1, ?_, ?_⟩
  · rw [g7]
    refine List.mem_map.2 ⟨{ id := e.fresh, host := h1, state := "Alive" }, ?_, ?_⟩
    · show _ ∈ (addHosts e "Alive" [h1, h2] e.fresh w).1.res
      rw [hres]; simp
    · rw [if_pos (List.cons_ne_nil _ _), if_neg]
      rw [byIds_one]
      show ¬ (e.fresh = e.fresh + 1)
      omega
  · refine ⟨applyAll (written ps) { id := e.fresh + 1, host := h2, state := "Alive" }, ?_, ?_, ?_⟩
    · rw [g7]
      refine List.mem_map.2 ⟨{ id := e.fresh + 1, host := h2, state := "Alive" }, ?_, ?_⟩
      · show _ ∈ (addHosts e "Alive" [h1, h2] e.fresh w).1.res
        rw [hres]; simp
      · rw [if_pos (List.cons_ne_nil _ _), if_pos ((byIds_one (e.fresh + 1) _).2 rfl)]
    · exact (applyAll_spec _ _ (written_mem hok)).1.1
    · exact (applyAll_spec _ _ (written_mem hok)).2

/-! ## The hypotheses are met -/

/-- A world with the usual columns, a node of two resources and another one; job 5 runs on the first. -/
def world0 : World := ⟨100, "frontal", ["id", "network_address", "type", "cpu", "drain", "available_upto", "last_available_upto"], fun _ => true, 4⟩

/-- The properties of the resources of the example. -/
def props0 : String → Option String := fun q => if q = "available_upto" then some "2147483647" else if q = "last_available_upto" then some "0" else none

/-- The tables of the example. -/
def tables0 : RDB :=
  ⟨[{ id := 1, host := "node1", state := "Alive", prop := props0 }, { id := 2, host := "node1", state := "Alive", prop := props0 },
    { id := 3, host := "node2", state := "Alive", prop := props0 }], [],
   ⟨[{ id := 5, state := "Running", user := "bob" }], [], [], [], []⟩, [⟨9, 1, true⟩], [(9, 5)]⟩

example : Storable world0 "cpu=2" := ⟨"cpu", "2", by decide +kernel, by decide, by decide, by decide, rfl⟩

example : Refused "state=Dead" := Or.inr ⟨"state", "Dead", by decide +kernel, by decide⟩

example : Refused "cpu=2=3" := Or.inl (by decide +kernel)

example : (tables0.res.map Res.id).Nodup := by decide

example : HasCols world0 := ⟨by decide, by decide⟩

example : ∀ r ∈ tables0.res, Numbers r := by
  intro r hr
  simp only [tables0, List.mem_cons, List.not_mem_nil, or_false] at hr
  rcases hr with rfl | rfl | rfl <;> exact ⟨2147483647, 0, by decide +kernel, by decide +kernel⟩

/-- The jobs of the first host are not waited for when another is given after it. -/
example : HoldsHost tables0 "node1" 5 ∧ ¬ HoldsHost tables0 "node2" 5 ∧ (run world0 { hosts := ["node1", "node2"], state := some "Absent" } tables0).waited = [] := by
  refine ⟨?_, ?_, by decide +kernel⟩
  · rw [← nodeJobs_spec]; decide +kernel
  · rw [← nodeJobs_spec]; decide +kernel

end Oar.NodeSetting
