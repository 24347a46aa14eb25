import Verif.Load

/-!
# What the API tells about the load (C126)
-/

namespace Oar.Load

/-! ## Specification -/

/-- The resource `r` is held by a job in one of these states. -/
def HeldIn (db : Db) (states : List String) (r : Nat) : Prop := ∃ j ∈ db.jobs, j.state ∈ states ∧ (j.mold, r) ∈ db.assigned

/-- The states of the jobs that have not given back their resources (a suspended job gives back the suspendable ones). -/
def holding : List String := ["toLaunch", "Launching", "Running", "Resuming", "Suspended", "Finishing"]

/-- `n` is the number of the resources such that `P`. -/
def Counts (P : Nat → Prop) (n : Nat) : Prop := ∃ l : List Nat, l.Nodup ∧ (∀ r, r ∈ l ↔ P r) ∧ l.length = n

/-- The lines of a text. -/
def Lines (text : List Char) (ls : List (List Char)) : Prop := ls ≠ [] ∧ (∀ l ∈ ls, '\n' ∉ l) ∧ text = List.intercalate ['\n'] ls

/-- The line gives the value `v` to GLOBAL_STRESS. -/
def Gives (l v : List Char) : Prop := l = "GLOBAL_STRESS=".toList ++ v ∧ '=' ∉ v

/-! ## Busy resources -/

theorem mem_distinct (a : Nat) : ∀ l : List Nat, a ∈ distinct l ↔ a ∈ l
  | [] => Iff.rfl
  | b :: l => by
    unfold distinct
    rw [List.mem_cons, List.mem_cons, List.mem_filter, mem_distinct a l]
    by_cases h : a = b <;> simp [h]

theorem nodup_distinct : ∀ l : List Nat, (distinct l).Nodup
  | [] => List.nodup_nil
  | b :: l => by
    unfold distinct
    refine List.nodup_cons.2 ⟨?_, (nodup_distinct l).filter _⟩
    rw [List.mem_filter]
    simp

/-- **C126.** The route counts, each once, the resources of the jobs that are to be launched, run or resume. -/
theorem busy_exact (db : Db) : Counts (HeldIn db ["toLaunch", "Running", "Resuming"]) (busy db) := by
  refine ⟨_, nodup_distinct _, fun r => ?_, rfl⟩
  rw [mem_distinct]
  unfold activeMolds HeldIn
  constructor
  · intro h
    obtain ⟨a, ha, rfl⟩ := List.mem_map.1 h
    obtain ⟨h1, h2⟩ := List.mem_filter.1 ha
    rw [List.contains_iff_mem] at h2
    obtain ⟨j, hj, e⟩ := List.mem_map.1 h2
    obtain ⟨h3, h4⟩ := List.mem_filter.1 hj
    exact ⟨j, h3, by simpa using h4, by rw [e]; exact h1⟩
  · rintro ⟨j, hj, hs, ha⟩
    refine List.mem_map.2 ⟨(j.mold, r), List.mem_filter.2 ⟨ha, ?_⟩, rfl⟩
    rw [List.contains_iff_mem]
    exact List.mem_map.2 ⟨j, List.mem_filter.2 ⟨hj, by simpa using hs⟩, rfl⟩

theorem length_le_of_subset : ∀ {l m : List Nat}, l.Nodup → (∀ x ∈ l, x ∈ m) → l.length ≤ m.length
  | [], m, _, _ => Nat.zero_le _
  | a :: l, m, hn, h => by
    obtain ⟨h1, h2⟩ := List.nodup_cons.1 hn
    have hm : a ∈ m := h a List.mem_cons_self
    have := length_le_of_subset (m := m.erase a) h2 (fun x hx => by
      refine (List.mem_erase_of_ne ?_).2 (h x (List.mem_cons_of_mem _ hx))
      rintro rfl; exact h1 hx)
    rw [List.length_erase_of_mem hm] at this
    have hpos : 0 < m.length := List.length_pos_of_mem hm
    rw [List.length_cons]
    omega

theorem counts_le {P Q : Nat → Prop} {n m : Nat} (hp : Counts P n) (hq : Counts Q m) (h : ∀ r, P r → Q r) : n ≤ m := by
  obtain ⟨l, l1, l2, rfl⟩ := hp
  obtain ⟨k, k1, k2, rfl⟩ := hq
  exact length_le_of_subset l1 fun x hx => (k2 x).2 (h x ((l2 x).1 hx))

/-- **C126.** The number told is at most the number of resources that are not free, and it is this number exactly when each one is also held by a job to be launched, running or resuming. -/
theorem busy_partial (db : Db) (n : Nat) (hn : Counts (HeldIn db holding) n) :
    busy db ≤ n ∧ (busy db = n ↔ ∀ r, HeldIn db holding r → HeldIn db ["toLaunch", "Running", "Resuming"] r) := by
  have hsub : ∀ r, HeldIn db ["toLaunch", "Running", "Resuming"] r → HeldIn db holding r := by
    rintro r ⟨j, hj, hs, ha⟩
    refine ⟨j, hj, ?_, ha⟩
    simp only [List.mem_cons, List.not_mem_nil, or_false] at hs
    rcases hs with e | e | e <;> rw [e] <;> decide
  have hle := counts_le (busy_exact db) hn hsub
  refine ⟨hle, ?_, ?_⟩
  · intro e r hr
    obtain ⟨l, l1, l2, l3⟩ := busy_exact db
    obtain ⟨k, k1, k2, k3⟩ := hn
    by_cases hx : r ∈ l
    · exact (l2 r).1 hx
    · exfalso
      have := length_le_of_subset (l := r :: l) (m := k) (List.nodup_cons.2 ⟨hx, l1⟩) (fun x hx => by
        rcases List.mem_cons.1 hx with rfl | hx
        · exact (k2 _).2 hr
        · exact (k2 x).2 (hsub x ((l2 x).1 hx)))
      rw [List.length_cons] at this
      omega
  · intro h
    exact Nat.le_antisymm hle (counts_le hn (busy_exact db) h)

/-- **C126** (violated). While its jobs are being launched, finish or are suspended, the cluster is told idle, whatever they hold. -/
theorem busy_violated (db : Db) (h : ∀ j ∈ db.jobs, j.state ∈ ["Launching", "Finishing", "Suspended", "Waiting"]) : busy db = 0 := by
  obtain ⟨l, _, l2, l3⟩ := busy_exact db
  cases l with
  | nil => exact l3.symm
  | cons a l =>
    obtain ⟨j, hj, hs, _⟩ := (l2 a).1 List.mem_cons_self
    have := h j hj
    simp only [List.mem_cons, List.not_mem_nil, or_false] at hs this
    exfalso
    rcases hs with e | e | e <;> rw [e] at this <;> revert this <;> decide

/-- Two jobs run on the same resource and on others, one is launched on the resource 4, one is over. -/
def exDb : Db := ⟨[⟨1, "Running", 11⟩, ⟨2, "toLaunch", 12⟩, ⟨3, "Launching", 13⟩, ⟨4, "Terminated", 14⟩, ⟨5, "Waiting", 0⟩], [(11, 1), (11, 2), (12, 2), (12, 3), (13, 4), (14, 5)]⟩

theorem busy_example : busy exDb = 3 ∧ Counts (HeldIn exDb holding) 4 := by
  refine ⟨by decide, [1, 2, 3, 4], by decide, fun r => ?_, rfl⟩
  unfold HeldIn holding
  constructor
  · intro h
    simp only [List.mem_cons, List.not_mem_nil, or_false] at h
    rcases h with rfl | rfl | rfl | rfl <;> decide
  · rintro ⟨j, hj, hs, ha⟩
    simp only [exDb, List.mem_cons, List.not_mem_nil, or_false] at hj
    rcases hj with rfl | rfl | rfl | rfl | rfl <;> simp [exDb] at ha hs ⊢ <;> omega

/-! ## The stress factor -/

theorem split_ne (c : Char) : ∀ l : List Char, split c l ≠ []
  | [] => by simp [split]
  | x :: l => by
    unfold split
    split
    · simp
    · split <;> simp

theorem split_none {c : Char} : ∀ {l : List Char}, c ∉ l → split c l = [l]
  | [], _ => rfl
  | x :: l, h => by
    unfold split
    rw [if_neg (fun e => h (by rw [e]; exact List.mem_cons_self)), split_none (fun hm => h (List.mem_cons_of_mem _ hm))]

theorem split_sep {c : Char} (r : List Char) : ∀ {l : List Char}, c ∉ l → split c (l ++ c :: r) = l :: split c r
  | [], _ => by
    show split c (c :: r) = _
    rw [split, if_pos rfl]
  | x :: l, h => by
    show split c (x :: (l ++ c :: r)) = _
    rw [split, if_neg (fun e => h (by rw [e]; exact List.mem_cons_self)), split_sep r (fun hm => h (List.mem_cons_of_mem _ hm))]

theorem split_lines {c : Char} : ∀ {ls : List (List Char)}, ls ≠ [] → (∀ l ∈ ls, c ∉ l) → split c (List.intercalate [c] ls) = ls
  | [], h, _ => absurd rfl h
  | [l], _, h => by
    show split c (List.intercalate [c] [l]) = _
    rw [show List.intercalate [c] [l] = l by simp [List.intercalate, List.intersperse]]
    exact split_none (h l List.mem_cons_self)
  | l :: m :: ls, _, h => by
    have e : List.intercalate [c] (l :: m :: ls) = l ++ c :: List.intercalate [c] (m :: ls) := by
      simp [List.intercalate, List.intersperse]
    rw [e, split_sep _ (h l List.mem_cons_self), split_lines (by simp) (fun x hx => h x (List.mem_cons_of_mem _ hx))]

theorem split_parts (c : Char) : ∀ l : List Char, (∀ p ∈ split c l, c ∉ p) ∧ List.intercalate [c] (split c l) = l
  | [] => ⟨by simp [split], by simp [split, List.intercalate]⟩
  | x :: l => by
    obtain ⟨i1, i2⟩ := split_parts c l
    unfold split
    by_cases hx : x = c
    · rw [if_pos hx]
      refine ⟨fun p hp => ?_, ?_⟩
      · rcases List.mem_cons.1 hp with rfl | hp
        · simp
        · exact i1 p hp
      · cases hs : split c l with
        | nil => exact absurd hs (split_ne c l)
        | cons p ps =>
          have : List.intercalate [c] ([] :: p :: ps) = c :: List.intercalate [c] (p :: ps) := by simp [List.intercalate, List.intersperse]
          rw [this, ← hs, i2, hx]
    · rw [if_neg hx]
      cases hs : split c l with
      | nil => exact absurd hs (split_ne c l)
      | cons p ps =>
        dsimp only
        rw [hs] at i1 i2
        refine ⟨fun q hq => ?_, ?_⟩
        · rcases List.mem_cons.1 hq with rfl | hq
          · rw [List.mem_cons]
            rintro (e | e)
            · exact hx e.symm
            · exact i1 p List.mem_cons_self e
          · exact i1 q (List.mem_cons_of_mem _ hq)
        · cases ps with
          | nil => simpa [List.intercalate, List.intersperse] using i2
          | cons q ps => simpa [List.intercalate, List.intersperse] using i2

theorem gives_iff (l v : List Char) : Gives l v ↔ split '=' l = [key, v] := by
  constructor
  · rintro ⟨rfl, h⟩
    have e : "GLOBAL_STRESS=".toList ++ v = key ++ '=' :: v := by
      rw [show "GLOBAL_STRESS=".toList = key ++ ['='] by decide +kernel, List.append_assoc]
      rfl
    rw [e, split_sep v (by decide +kernel), split_none h]
  · intro h
    obtain ⟨h1, h2⟩ := split_parts '=' l
    rw [h] at h1 h2
    refine ⟨?_, h1 v (by simp)⟩
    rw [← h2, show "GLOBAL_STRESS=".toList = key ++ ['='] by decide +kernel]
    simp [List.intercalate, List.intersperse]

theorem scan_spec : ∀ (ls : List (List Char)) (d r : Option (List Char)), scan ls d = r ↔
    (∃ pre l v post, ls = pre ++ l :: post ∧ Gives l v ∧ r = some v ∧ ∀ x ∈ post, ∀ w, ¬ Gives x w) ∨ ((∀ x ∈ ls, ∀ w, ¬ Gives x w) ∧ r = d)
  | [], d, r => by
    unfold scan
    constructor
    · intro h; exact Or.inr ⟨by simp, h.symm⟩
    · rintro (⟨pre, l, v, post, e, _⟩ | ⟨_, h⟩)
      · exact absurd e.symm (by simp)
      · exact h.symm
  | l :: ls, d, r => by
    have key' : ∃ d', scan (l :: ls) d = scan ls d' ∧ ((∃ v, Gives l v ∧ d' = some v) ∨ ((∀ w, ¬ Gives l w) ∧ d' = d)) := by
      conv => enter [1, d', 1, 1]; unfold scan
      split
      · rename_i k v hs
        refine ⟨_, rfl, ?_⟩
        by_cases hk : k = key
        · subst hk
          exact Or.inl ⟨v, (gives_iff l v).2 hs, by rw [if_pos rfl]⟩
        · refine Or.inr ⟨fun w hw => ?_, by rw [if_neg hk]⟩
          rw [gives_iff, hs] at hw
          simp only [List.cons.injEq] at hw
          exact hk hw.1
      · rename_i hno
        exact ⟨d, rfl, Or.inr ⟨fun w hw => hno _ _ ((gives_iff l w).1 hw), rfl⟩⟩
    obtain ⟨d', e, hd⟩ := key'
    rw [e, scan_spec ls d' r]
    constructor
    · rintro (⟨pre, x, v, post, rfl, r1, r2, r3⟩ | ⟨h1, h2⟩)
      · exact Or.inl ⟨l :: pre, x, v, post, rfl, r1, r2, r3⟩
      · rcases hd with ⟨v, hv, rfl⟩ | ⟨hv, rfl⟩
        · exact Or.inl ⟨[], l, v, ls, rfl, hv, h2, h1⟩
        · refine Or.inr ⟨fun x hx => ?_, h2⟩
          rcases List.mem_cons.1 hx with rfl | hx
          · exact hv
          · exact h1 x hx
    · rintro (⟨pre, x, v, post, h, r1, r2, r3⟩ | ⟨h1, h2⟩)
      · cases pre with
        | nil =>
          simp only [List.nil_append, List.cons.injEq] at h
          obtain ⟨rfl, rfl⟩ := h
          rcases hd with ⟨w, hw, rfl⟩ | ⟨hw, rfl⟩
          · have : w = v := by
              have a := (gives_iff _ _).1 hw
              rw [(gives_iff _ _).1 r1] at a
              simpa using a.symm
            exact Or.inr ⟨r3, by rw [r2, this]⟩
          · exact absurd r1 (hw v)
        | cons y pre =>
          simp only [List.cons_append, List.cons.injEq] at h
          obtain ⟨rfl, rfl⟩ := h
          exact Or.inl ⟨pre, x, v, post, rfl, r1, r2, r3⟩
      · rcases hd with ⟨w, hw, rfl⟩ | ⟨hw, rfl⟩
        · exact absurd hw (h1 l List.mem_cons_self w)
        · exact Or.inr ⟨fun x hx => h1 x (List.mem_cons_of_mem _ hx), h2⟩

/-- **C126.** The stress factor told is the value of the last line of the script that gives one; none is told when there is no such line, or when the script fails. -/
theorem stress_exact (text : List Char) (ls : List (List Char)) (h : Lines text ls) :
    (∀ v, stress (some text) = .ok v ↔ ∃ pre l post, ls = pre ++ l :: post ∧ Gives l v ∧ ∀ x ∈ post, ∀ w, ¬ Gives x w) ∧
    (stress (some text) = .notFound ↔ ∀ x ∈ ls, ∀ w, ¬ Gives x w) ∧ stress (some text) ≠ .failed ∧ stress none = .failed := by
  obtain ⟨h1, h2, rfl⟩ := h
  have e : stress (some (List.intercalate ['\n'] ls)) = (match scan ls none with | some v => .ok v | none => .notFound) := by
    show (match scan (split '\n' (List.intercalate ['\n'] ls)) none with | some v => Answer.ok v | none => .notFound) = _
    rw [split_lines h1 h2]
  rw [e]
  refine ⟨fun v => ?_, ?_, ?_, rfl⟩
  · have := scan_spec ls none (some v)
    constructor
    · intro hh
      have hs : scan ls none = some v := by
        cases hc : scan ls none with
        | none => rw [hc] at hh; simp at hh
        | some w => rw [hc] at hh; simp at hh; rw [hh]
      rcases this.1 hs with ⟨pre, l, w, post, r0, r1, r2, r3⟩ | ⟨_, r⟩
      · simp only [Option.some.injEq] at r2
        subst r2
        exact ⟨pre, l, post, r0, r1, r3⟩
      · simp at r
    · rintro ⟨pre, l, post, r0, r1, r3⟩
      rw [this.2 (Or.inl ⟨pre, l, v, post, r0, r1, rfl, r3⟩)]
  · have := scan_spec ls none none
    constructor
    · intro hh
      have hs : scan ls none = none := by
        cases hc : scan ls none with
        | none => rfl
        | some w => rw [hc] at hh; simp at hh
      rcases this.1 hs with ⟨pre, l, w, post, r0, r1, r2, r3⟩ | ⟨r, _⟩
      · simp at r2
      · exact r
    · intro hh
      rw [this.2 (Or.inr ⟨hh, rfl⟩)]
  · cases scan ls none <;> simp

/-- The lines of a text exist. -/
theorem lines_exist (text : List Char) : ∃ ls, Lines text ls := ⟨split '\n' text, split_ne _ _, (split_parts _ _).1, (split_parts _ _).2.symm⟩

theorem stress_example : stress (some "a=1\nGLOBAL_STRESS=0.2\nGLOBAL_STRESS=0.7\nGLOBAL_STRESS=0=1\n".toList) = .ok "0.7".toList ∧
    stress (some "GLOBAL_STRESS = 0.2\n".toList) = .notFound := by decide +kernel

/-! ## oarnotify -/

/-- **C126.** `oarnotify` sends its tag, with the status 0, exactly for the users `oar` and `root`; the version asked, it sends nothing. -/
theorem notify_exact (user : String) (sudo : Option String) (tag : String) (version : Bool) (name : String) (hn : sudo = some name ∨ (sudo = none ∧ user = name)) :
    ((oarnotify user sudo tag version).sent = [tag] ↔ version = false ∧ (name = "oar" ∨ name = "root")) ∧
    ((oarnotify user sudo tag version).sent = [tag] ∨ (oarnotify user sudo tag version).sent = []) ∧
    ((oarnotify user sudo tag version).exit = 0 ↔ version = true ∨ name = "oar" ∨ name = "root") := by
  have e : sudo.getD user = name := by
    rcases hn with rfl | ⟨rfl, rfl⟩ <;> rfl
  unfold oarnotify
  rw [e]
  cases version
  · by_cases h : name = "oar" ∨ name = "root"
    · simp [h]
    · simp [h]
  · simp

/-- **C126** (violated). The name is the one the user writes in the variable USER: who runs the command with `USER=root` stops the server. -/
theorem notify_violated (tag : String) : oarnotify "root" none tag false = ⟨[tag], 0⟩ := rfl

end Oar.Load
