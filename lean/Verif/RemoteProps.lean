import Verif.Remote
import Verif.ToolsProps
import Verif.BipbipProps

/-!
# C106: the results of the remote commands
-/

namespace Oar.Remote

open Oar.Tools

/-! ### Specification -/

/-- The host `h` reports a success: a line of the output is exactly `STATUS h 0`. -/
def Reports (out : List Char) (h : List Char) : Prop := txt "STATUS " ++ h ++ txt " 0" ∈ split '\n' out

/-- A name that the answers can contain. -/
def Named (h : List Char) : Prop := h ≠ [] ∧ ∀ c ∈ h, c.isAlphanum = true ∨ c ∈ ['_', '.', '-']

/-- The resource `r` is assigned to the moldable description and takes part in the cpusets. -/
def Takes (assigned : List (Nat × Nat)) (mold : Nat) (always : Option String) (r : Res) : Prop :=
  (mold, r.id) ∈ assigned ∧ r.host ≠ "" ∧ (r.typ = "default" ∨ always = some r.typ)

/-! ### The answers -/

theorem hostChar_iff (c : Char) : hostChar c = true ↔ c.isAlphanum = true ∨ c ∈ ['_', '.', '-'] := by
  unfold hostChar
  simp [Bool.or_eq_true, or_assoc]

theorem takeWhile_append_stop {α : Type} (p : α → Bool) (a : List α) (x : α) (b : List α) (ha : ∀ c ∈ a, p c = true) (hx : p x = false) :
    (a ++ x :: b).takeWhile p = a ∧ (a ++ x :: b).dropWhile p = x :: b := by
  induction a with
  | nil => simp [hx]
  | cons c a ih =>
    have hc := ha c List.mem_cons_self
    have := ih (fun d hd => ha d (List.mem_cons_of_mem _ hd))
    simp [hc, this.1, this.2]

theorem success_iff (line h : List Char) : success line = some h ↔ Named h ∧ line = txt "STATUS " ++ h ++ txt " 0" := by
  unfold success
  constructor
  · intro hs
    split at hs
    · rename_i hp
      dsimp only at hs
      split at hs
      · rename_i hc
        have hh : (line.drop 7).takeWhile hostChar = h := by simpa using hs
        obtain ⟨r, rfl⟩ := List.isPrefixOf_iff_prefix.1 hp
        have e7 : (txt "STATUS " ++ r).drop 7 = r := rfl
        rw [e7] at hh hc
        refine ⟨⟨by rw [← hh]; exact hc.1, ?_⟩, ?_⟩
        · intro c hcm
          rw [← hh] at hcm
          exact (hostChar_iff c).1 (List.all_eq_true.1 List.all_takeWhile c hcm)
        · rw [List.append_assoc, ← hh, ← hc.2, List.takeWhile_append_dropWhile]
      · cases hs
    · cases hs
  · rintro ⟨hn, rfl⟩
    rw [if_pos (List.isPrefixOf_iff_prefix.2 ⟨h ++ txt " 0", by simp⟩)]
    have e7 : (txt "STATUS " ++ h ++ txt " 0").drop 7 = h ++ ' ' :: txt "0" := rfl
    have := takeWhile_append_stop hostChar h ' ' (txt "0") (fun c hc => (hostChar_iff c).2 (hn.2 c hc)) (by decide)
    dsimp only
    rw [e7, this.1, this.2]
    exact if_pos ⟨hn.1, rfl⟩

theorem bad_mem (ls : List (List Char)) (bad : List (List Char)) (x : List Char) :
    x ∈ ls.foldl answered bad ↔ x ∈ bad ∧ ∀ l ∈ ls, success l ≠ some x := by
  induction ls generalizing bad with
  | nil => simp
  | cons l ls ih =>
    rw [List.foldl_cons, ih]
    unfold answered
    cases hs : success l with
    | none => simp [hs]
    | some h =>
      simp only [List.mem_filter, bne_iff_ne, ne_eq, List.forall_mem_cons, hs, Option.some.injEq]
      constructor
      · rintro ⟨⟨h1, h2⟩, h3⟩; exact ⟨h1, fun e => h2 e.symm, h3⟩
      · rintro ⟨h1, h2, h3⟩; exact ⟨⟨h1, fun e => h2 e.symm⟩, h3⟩

/-- For every output, when the command ends in time, the hosts reported as bad are exactly the hosts asked that did not report a success with a name that can be read. -/
theorem bad_exact (hosts : List (List Char)) (out : List Char) : (manage hosts (some out)).1 = true ∧
    ∀ h, h ∈ (manage hosts (some out)).2 ↔ h ∈ hosts ∧ ¬ (Named h ∧ Reports out h) := by
  refine ⟨rfl, ?_⟩
  intro h
  show h ∈ (split '\n' out).foldl answered hosts ↔ _
  rw [bad_mem]
  constructor
  · rintro ⟨h1, h2⟩
    exact ⟨h1, fun hc => h2 _ hc.2 ((success_iff _ _).2 ⟨hc.1, rfl⟩)⟩
  · rintro ⟨h1, h2⟩
    refine ⟨h1, ?_⟩
    intro l hl hs
    obtain ⟨h3, rfl⟩ := (success_iff _ _).1 hs
    exact h2 ⟨h3, hl⟩

theorem foldl_sublist (ls : List (List Char)) (bad : List (List Char)) : List.Sublist (ls.foldl answered bad) bad := by
  induction ls generalizing bad with
  | nil => exact List.Sublist.refl _
  | cons l ls ih =>
    rw [List.foldl_cons]
    refine (ih _).trans ?_
    unfold answered
    cases success l with
    | none => exact List.Sublist.refl _
    | some h => exact List.filter_sublist

/-- Each bad host is named once, in the order of the hosts. -/
theorem bad_once (hosts : List (List Char)) (o : Option (List Char)) : List.Sublist (manage hosts o).2 hosts := by
  cases o with
  | none => exact List.nil_sublist _
  | some out => exact foldl_sublist _ _

/-- VIOLATION. When one host makes the command wait too long, no host is reported, whatever the others did: the command is only said to have failed. -/
theorem timeout_hides (hosts : List (List Char)) (o : Option (List Char)) : (manage hosts none).2 = [] ∧ ((manage hosts o).1 = false ↔ o = none) := by
  refine ⟨rfl, ?_⟩
  cases o <;> simp [manage]

/-- VIOLATION. A host whose name has another character (as a colon) is always bad, whatever it answers. -/
theorem other_name_violated (hosts : List (List Char)) (h : List Char) (hh : h ∈ hosts) (c : Char) (hc : c ∈ h) (hn : ¬ (c.isAlphanum = true ∨ c ∈ ['_', '.', '-'])) (out : List Char) :
    h ∈ (manage hosts (some out)).2 := by
  rw [(bad_exact hosts out).2]
  exact ⟨hh, fun hx => hn (hx.1.2 c hc)⟩

/-- The start of oarexec succeeds exactly when a whole line of the answer is the text expected. -/
theorem launched_iff (meeting : List Char) (o : Option (List Char)) : launched meeting o = true ↔ ∃ out, o = some out ∧ meeting ∈ split '\n' out := by
  unfold launched
  cases o with
  | none => simp
  | some out => simp

/-- The hosts can be read back from what is written. -/
theorem hostFile_lines (hosts : List (List Char)) (h : ∀ x ∈ hosts, '\n' ∉ x) : split '\n' (hostFile hosts) = hosts ++ [[]] := by
  induction hosts with
  | nil => rfl
  | cons x hosts ih =>
    have hx := h x List.mem_cons_self
    have e : hostFile (x :: hosts) = x ++ '\n' :: hostFile hosts := by simp [hostFile]
    rw [e]
    have key : ∀ (a b : List Char), '\n' ∉ a → split '\n' (a ++ '\n' :: b) = a :: split '\n' b := by
      intro a b
      induction a with
      | nil => intro _; rfl
      | cons c a iha =>
        intro hna
        have hc : ¬ c = '\n' := fun e => hna (by rw [e]; exact List.mem_cons_self)
        show (if c = '\n' then [] :: split '\n' (a ++ '\n' :: b) else match split '\n' (a ++ '\n' :: b) with
          | [] => [[c]]
          | w :: ws => (c :: w) :: ws) = _
        rw [if_neg hc, iha (fun hh => hna (List.mem_cons_of_mem _ hh))]
    rw [key _ _ hx, ih (fun y hy => h y (List.mem_cons_of_mem _ hy))]
    rfl

/-! ### The cpusets -/

theorem rows_mem (res : List Res) (assigned : List (Nat × Nat)) (mold : Nat) (always : Option String) (h v : String) :
    (h, v) ∈ rows res assigned mold always ↔ ∃ r ∈ res, Takes assigned mold always r ∧ r.host = h ∧ r.value = v := by
  unfold rows Takes
  simp only [List.mem_eraseDups, List.mem_map, List.mem_filter, Prod.mk.injEq, Bool.and_eq_true, Bool.or_eq_true, beq_iff_eq, bne_iff_ne, List.contains_iff_mem, ne_eq]
  constructor
  · rintro ⟨r, ⟨h1, ⟨h2, h3⟩, h4⟩, h5, h6⟩; exact ⟨r, h1, ⟨h2, h3, h4⟩, h5, h6⟩
  · rintro ⟨r, h1, ⟨h2, h3, h4⟩, h5, h6⟩; exact ⟨r, ⟨h1, ⟨h2, h3⟩, h4⟩, h5, h6⟩

/-- What the dictionary is after rows `l`. -/
structure Good (l : List (String × String)) (d : List (String × List String)) : Prop where
  keys : (d.map Prod.fst).Nodup
  vals : ∀ h vs, (h, vs) ∈ d → vs ≠ [] ∧ vs.Nodup ∧ ∀ v, v ∈ vs ↔ (h, v) ∈ l
  all : ∀ h v, (h, v) ∈ l → h ∈ d.map Prod.fst

theorem addRow_keys (d : List (String × List String)) (h v : String) : (addRow d (h, v)).map Prod.fst = if h ∈ d.map Prod.fst then d.map Prod.fst else d.map Prod.fst ++ [h] := by
  induction d with
  | nil => rfl
  | cons p d ih =>
    obtain ⟨k, l⟩ := p
    unfold addRow
    by_cases hk : k = h
    · rw [if_pos hk]
      simp [hk]
    · rw [if_neg hk, List.map_cons, ih]
      have hk' : ¬ h = k := fun e => hk e.symm
      by_cases hm : h ∈ d.map Prod.fst
      · have h2 : h ∈ List.map Prod.fst ((k, l) :: d) := List.mem_cons_of_mem _ hm
        rw [if_pos hm, if_pos h2]; rfl
      · have h2 : ¬ h ∈ List.map Prod.fst ((k, l) :: d) := by
          rw [List.map_cons, List.mem_cons]
          rintro (e | e)
          · exact hk' e
          · exact hm e
        rw [if_neg hm, if_neg h2]; rfl

theorem addRow_mem (d : List (String × List String)) (hd : (d.map Prod.fst).Nodup) (h v h' : String) (vs : List String) :
    (h', vs) ∈ addRow d (h, v) ↔ (h' ≠ h ∧ (h', vs) ∈ d) ∨ (h' = h ∧ ((∃ l, (h, l) ∈ d ∧ vs = l ++ [v]) ∨ (h ∉ d.map Prod.fst ∧ vs = [v]))) := by
  induction d with
  | nil => simp [addRow]
  | cons p d ih =>
    obtain ⟨k, l⟩ := p
    rw [List.map_cons, List.nodup_cons] at hd
    have ih := ih hd.2
    unfold addRow
    by_cases hk : k = h
    · subst hk
      rw [if_pos rfl]
      have hno : ∀ l', (k, l') ∉ d := fun l' hm => hd.1 (List.mem_map.2 ⟨_, hm, rfl⟩)
      simp only [List.mem_cons, Prod.mk.injEq, List.map_cons]
      constructor
      · rintro (⟨rfl, rfl⟩ | hm)
        · exact Or.inr ⟨rfl, Or.inl ⟨l, Or.inl ⟨trivial, rfl⟩, rfl⟩⟩
        · by_cases e : h' = k
          · rw [e] at hm; exact absurd hm (hno _)
          · exact Or.inl ⟨e, Or.inr hm⟩
      · rintro (⟨h1, ⟨h2, _⟩ | h2⟩ | ⟨rfl, ⟨l', ⟨_, rfl⟩ | h2, rfl⟩ | ⟨h2, _⟩⟩)
        · exact absurd h2 h1
        · exact Or.inr h2
        · exact Or.inl ⟨rfl, rfl⟩
        · exact absurd h2 (hno _)
        · exact absurd (Or.inl trivial) h2
    · rw [if_neg hk, List.mem_cons, ih]
      have hk' : ¬ h = k := fun e => hk e.symm
      simp only [List.mem_cons, Prod.mk.injEq, List.map_cons, not_or]
      constructor
      · rintro (⟨rfl, rfl⟩ | ⟨h1, h2⟩ | ⟨h1, ⟨l', h2, h3⟩ | ⟨h2, h3⟩⟩)
        · exact Or.inl ⟨hk, Or.inl ⟨rfl, rfl⟩⟩
        · exact Or.inl ⟨h1, Or.inr h2⟩
        · exact Or.inr ⟨h1, Or.inl ⟨l', Or.inr h2, h3⟩⟩
        · exact Or.inr ⟨h1, Or.inr ⟨⟨hk', h2⟩, h3⟩⟩
      · rintro (⟨h1, ⟨h2, h3⟩ | h2⟩ | ⟨h1, ⟨l', ⟨h2, _⟩ | h2, h3⟩ | ⟨⟨_, h2⟩, h3⟩⟩)
        · exact Or.inl ⟨h2, h3⟩
        · exact Or.inr (Or.inl ⟨h1, h2⟩)
        · exact absurd h2 hk'
        · exact Or.inr (Or.inr ⟨h1, Or.inl ⟨l', h2, h3⟩⟩)
        · exact Or.inr (Or.inr ⟨h1, Or.inr ⟨h2, h3⟩⟩)

theorem good_step {l : List (String × String)} {d : List (String × List String)} (g : Good l d) (h v : String) (hn : (h, v) ∉ l) : Good (l ++ [(h, v)]) (addRow d (h, v)) := by
  refine ⟨?_, ?_, ?_⟩
  · rw [addRow_keys]
    split
    · exact g.keys
    · rename_i hm
      rw [List.nodup_append]
      refine ⟨g.keys, by simp, ?_⟩
      intro a ha b hb
      have : b = h := by simpa using hb
      rw [this]
      exact fun e => hm (by rw [← e]; exact ha)
  · intro h' vs hm
    rcases (addRow_mem d g.keys h v h' vs).1 hm with ⟨h1, h2⟩ | ⟨rfl, ⟨l', h2, rfl⟩ | ⟨h2, rfl⟩⟩
    · obtain ⟨a, b, c⟩ := g.vals h' vs h2
      refine ⟨a, b, fun v' => ?_⟩
      rw [c v', List.mem_append]
      constructor
      · exact Or.inl
      · rintro (hx | hx)
        · exact hx
        · have : h' = h ∧ v' = v := by simpa using hx
          exact absurd this.1 h1
    · obtain ⟨a, b, c⟩ := g.vals h' l' h2
      refine ⟨by simp, ?_, fun v' => ?_⟩
      · rw [List.nodup_append]
        refine ⟨b, by simp, ?_⟩
        intro x hx y hy
        have : y = v := by simpa using hy
        rw [this]
        rintro rfl
        exact hn ((c x).1 hx)
      · rw [List.mem_append, List.mem_append, c v']
        simp
    · refine ⟨by simp, by simp, fun v' => ?_⟩
      rw [List.mem_append]
      constructor
      · intro hx
        have : v' = v := by simpa using hx
        right; simp [this]
      · rintro (hx | hx)
        · exact absurd (g.all _ _ hx) h2
        · simpa using hx
  · intro h' v' hm
    rw [addRow_keys]
    rcases List.mem_append.1 hm with hx | hx
    · have := g.all _ _ hx
      split
      · exact this
      · exact List.mem_append.2 (Or.inl this)
    · have : h' = h ∧ v' = v := by simpa using hx
      rw [this.1]
      split
      · assumption
      · simp

theorem good_fold (l : List (String × String)) : ∀ (pre : List (String × String)) (d : List (String × List String)), Good pre d → (pre ++ l).Nodup → Good (pre ++ l) (l.foldl addRow d) := by
  induction l with
  | nil => intro pre d g _; simpa using g
  | cons p l ih =>
    intro pre d g hn
    obtain ⟨h, v⟩ := p
    have hnot : (h, v) ∉ pre := by
      intro hm
      have := (List.nodup_append.1 hn).2.2 _ hm (h, v) List.mem_cons_self
      exact this rfl
    have e : pre ++ (h, v) :: l = (pre ++ [(h, v)]) ++ l := by simp
    rw [e] at hn ⊢
    exact ih _ _ (good_step g h v hnot) hn

theorem eraseDups_nodup : ∀ (n : Nat) (l : List (String × String)), l.length ≤ n → l.eraseDups.Nodup := by
  intro n
  induction n with
  | zero => intro l h; have : l = [] := List.length_eq_zero_iff.1 (by omega); rw [this]; simp
  | succ n ih =>
    intro l h
    cases l with
    | nil => simp
    | cons a l =>
      rw [List.eraseDups_cons, List.nodup_cons]
      refine ⟨?_, ih _ ?_⟩
      · rw [List.mem_eraseDups]
        simp
      · have := List.length_filter_le (fun b => !b == a) l
        simp only [List.length_cons] at h
        omega

/-- The cpusets: one entry for each host that has an assigned resource that takes part, with exactly the values of these resources, each once. -/
theorem cpusets_exact (res : List Res) (assigned : List (Nat × Nat)) (mold : Nat) (always : Option String) :
    ((cpusets res assigned mold always).map Prod.fst).Nodup ∧
    (∀ h, h ∈ (cpusets res assigned mold always).map Prod.fst ↔ ∃ r ∈ res, Takes assigned mold always r ∧ r.host = h) ∧
    (∀ h vs, (h, vs) ∈ cpusets res assigned mold always → vs.Nodup ∧ ∀ v, v ∈ vs ↔ ∃ r ∈ res, Takes assigned mold always r ∧ r.host = h ∧ r.value = v) := by
  have hn : (rows res assigned mold always).Nodup := eraseDups_nodup _ _ (Nat.le_refl _)
  have g := good_fold (rows res assigned mold always) [] [] ⟨by simp, by simp, by simp⟩ (by simpa using hn)
  have e : cpusets res assigned mold always = (rows res assigned mold always).foldl addRow [] := rfl
  rw [← e] at g
  refine ⟨g.keys, ?_, ?_⟩
  · intro h
    constructor
    · intro hm
      obtain ⟨⟨k, vs⟩, h1, rfl⟩ := List.mem_map.1 hm
      obtain ⟨a, _, c⟩ := g.vals k vs h1
      obtain ⟨v, hv⟩ := List.exists_mem_of_ne_nil vs a
      have := (c v).1 hv
      obtain ⟨r, h2, h3, h4, _⟩ := (rows_mem _ _ _ _ _ _).1 (by simpa using this)
      exact ⟨r, h2, h3, h4⟩
    · rintro ⟨r, h1, h2, h3⟩
      exact g.all h r.value (by simpa using (rows_mem _ _ _ _ _ _).2 ⟨r, h1, h2, h3, rfl⟩)
  · intro h vs hm
    obtain ⟨_, b, c⟩ := g.vals h vs hm
    refine ⟨b, fun v => ?_⟩
    rw [c v]
    simpa using rows_mem res assigned mold always h v

/-! ### The launch of a job -/

open Oar.Jobs Oar.Bipbip in
/-- A job that is not a reservation and is started with cpusets whose creation has ended in time: every host of its resources has reported a success. -/
theorem started_after_success {w : Bipbip.World} {db : DB} {jid : Nat} {a : Args} {j : JobRow} (hj : db.job? jid = some j) (ho : Ordinary w j) (hr : j.reservation = "None")
    {res : List Res} {assigned : List (Nat × Nat)} {mold : Nat} {always : Option String} (hc : w.cpusetNodes = (cpusets res assigned mold always).map Prod.fst) {out : List Char}
    (hi : w.init = ((manage (w.cpusetNodes.map String.toList) (some out)).1, (manage (w.cpusetNodes.map String.toList) (some out)).2.map String.ofList))
    {n : String} (h : Act.oarexec n ∈ (run w db jid a).acts) : ∀ r ∈ res, Takes assigned mold always r → Reports out r.host.toList := by
  intro r hrm ht
  obtain ⟨_, _, _, hx⟩ := oarexec_nodes_ok hj ho hr h
  have hm : r.host ∈ w.cpusetNodes := by
    rw [hc]
    exact ((cpusets_exact res assigned mold always).2.1 r.host).2 ⟨r, hrm, ht, rfl⟩
  rcases hx with hx | hx | hx
  · rw [hx] at hm; simp at hm
  · rw [hi] at hx; cases hx
  · rw [hi] at hx
    have he : (manage (w.cpusetNodes.map String.toList) (some out)).2 = [] := List.map_eq_nil_iff.1 hx
    have hb := (bad_exact (w.cpusetNodes.map String.toList) out).2 r.host.toList
    rw [he] at hb
    by_cases hrep : Named r.host.toList ∧ Reports out r.host.toList
    · exact hrep.2
    · exact absurd (hb.2 ⟨List.mem_map.2 ⟨_, hm, rfl⟩, hrep⟩) (by simp)

/-! ### Examples -/

theorem answer_example : manage [txt "n1", txt "n-2.site", txt "fe80::1"] (some (txt "STATUS n1 0\nSTATUS n-2.site 1\nSTATUS fe80::1 0\nSTATUS other 0\n")) =
    (true, [txt "n-2.site", txt "fe80::1"]) := by decide +kernel

theorem launched_example : launched (txt "oarexec is initialized and ready to do the job") (some (txt "hello\noarexec is initialized and ready to do the job\n")) = true ∧
    launched (txt "oarexec is initialized and ready to do the job") (some (txt "oarexec is initialized and ready to do the job\r\n")) = false := by decide +kernel

theorem cpusets_example : cpusets [⟨1, "n1", "default", "0"⟩, ⟨2, "n1", "default", "1"⟩, ⟨3, "n1", "default", "1"⟩, ⟨4, "n2", "licence", "0"⟩, ⟨5, "", "default", "0"⟩, ⟨6, "n3", "default", "0"⟩]
    [(7, 1), (7, 2), (7, 3), (7, 4), (7, 5), (8, 6)] 7 none = [("n1", ["0", "1"])] := by decide +kernel

end Oar.Remote
