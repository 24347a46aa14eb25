import Verif.MediaSpec

/-!
# The access to the files with the API (C90)
-/

namespace Oar.Media

open Oar.Tools Oar.Media.Spec

theorem special_iff (c : Char) : special c = true ↔ c = '$' ∨ c = ',' ∨ c = '`' ∨ c = ' ' := by
  unfold special
  simp only [Bool.or_eq_true, beq_iff_eq, or_assoc]

theorem plain_special {s : List Char} (h : Plain s) : ∀ c ∈ s, special c = false := by
  intro c hc
  rw [Bool.eq_false_iff]
  intro hs
  have := h c hc
  rcases (special_iff c).1 hs with e | e | e | e
  · exact this.1 e
  · exact this.2.1 e
  · exact this.2.2.1 e
  · exact this.2.2.2 e

theorem escape_plain : ∀ {s : List Char}, (∀ c ∈ s, special c = false) → escape s = s
  | [], _ => rfl
  | c :: s, h => by
    show (if special c then ['\\', c] else [c]) ++ escape s = _
    rw [h c List.mem_cons_self, escape_plain (fun x hx => h x (List.mem_cons_of_mem _ hx))]
    rfl

/-- **C90.** A plain name designates the file of that name from the root. -/
theorem path_plain {s : List Char} (h : Plain s) : pathOf s = named s := by
  unfold pathOf named
  rw [escape_plain (plain_special h)]

/-- The first character of an escaped text is not a special one. -/
theorem escape_head : ∀ (s : List Char) (c : Char) (r : List Char), escape s = c :: r → special c = false
  | [], c, r, h => by cases h
  | x :: s, c, r, h => by
    by_cases hx : special x = true
    · have e : escape (x :: s) = '\\' :: x :: escape s := by
        show (if special x then ['\\', x] else [x]) ++ escape s = _
        rw [if_pos hx]; rfl
      rw [e] at h
      rw [← (List.cons.inj h).1]; rfl
    · have e : escape (x :: s) = x :: escape s := by
        show (if special x then ['\\', x] else [x]) ++ escape s = _
        rw [if_neg hx]; rfl
      rw [e] at h
      rw [← (List.cons.inj h).1]
      simpa using hx

theorem escape_inj : ∀ (s t : List Char), escape s = escape t → s = t
  | [], [], _ => rfl
  | [], y :: t, h => by
    have h : [] = (if special y then ['\\', y] else [y]) ++ escape t := h
    split at h <;> cases h
  | x :: s, [], h => by
    have h : (if special x then ['\\', x] else [x]) ++ escape s = [] := h
    split at h <;> cases h
  | x :: s, y :: t, h => by
    have h : (if special x then ['\\', x] else [x]) ++ escape s = (if special y then ['\\', y] else [y]) ++ escape t := h
    by_cases hx : special x = true <;> by_cases hy : special y = true
    · rw [if_pos hx, if_pos hy] at h
      have h1 := (List.cons.inj h).2
      have h2 := List.cons.inj h1
      rw [h2.1, escape_inj s t h2.2]
    · rw [if_pos hx, if_neg hy] at h
      have h1 := (List.cons.inj h).2
      have := escape_head t x (escape s) h1.symm
      rw [this] at hx; cases hx
    · rw [if_neg hx, if_pos hy] at h
      have h1 := (List.cons.inj h).2
      have := escape_head s y (escape t) h1
      rw [this] at hy; cases hy
    · rw [if_neg hx, if_neg hy] at h
      have h2 := List.cons.inj h
      rw [h2.1, escape_inj s t h2.2]

/-- **C90.** Two names designate two files; no name is read as an option by the commands. -/
theorem path_inj {s t : List Char} : (pathOf s = pathOf t → s = t) ∧ ∃ r, pathOf s = '/' :: r :=
  ⟨fun h => escape_inj s t (List.cons.inj h).2, _, rfl⟩

/-- A name with a special character designates another file. -/
theorem path_other {s : List Char} (h : ¬ Plain s) : pathOf s ≠ named s := by
  intro e
  have e := (List.cons.inj e).2
  apply h
  have len : ∀ (l : List Char), l.length ≤ (escape l).length ∧ ((escape l).length = l.length → ∀ c ∈ l, special c = false) := by
    intro l
    induction l with
    | nil => exact ⟨Nat.le_refl _, by simp⟩
    | cons x l ih =>
      have e : escape (x :: l) = (if special x then ['\\', x] else [x]) ++ escape l := rfl
      rw [e]
      by_cases hx : special x = true
      · rw [if_pos hx]
        constructor
        · simp; omega
        · intro h; simp at h; omega
      · rw [if_neg hx]
        constructor
        · simp; omega
        · intro h c hc
          rcases List.mem_cons.1 hc with rfl | hc
          · simpa using hx
          · exact ih.2 (by simp at h; omega) c hc
  have hs := (len s).2 (by rw [e])
  intro c hc
  have := hs c hc
  refine ⟨?_, ?_, ?_, ?_⟩ <;> (rintro rfl; revert this; decide)

/-! ## Rights -/

/-- **C90.** Every command of every request is run as the authenticated user. -/
theorem as_user (w : World) (fs : Files) (user : List Char) (r : Request) : ∀ c ∈ (serve w fs user r).cmds, c.user = user := by
  have h1 : ∀ (a : Cmd) (c : Cmd), a.user = user → c ∈ [a] → c.user = user := fun a c h hc => by
    rw [List.mem_singleton.1 hc]; exact h
  intro c hc
  cases r with
  | get n t =>
    unfold serve get at hc
    dsimp only at hc
    repeat' split at hc
    all_goals
      simp only [List.mem_cons, List.not_mem_nil, or_false] at hc
      first
        | (rcases hc with rfl | rfl | rfl <;> rfl)
        | (rcases hc with rfl | rfl <;> rfl)
        | (subst hc; rfl)
  | chmod n m =>
    unfold serve chmod at hc
    dsimp only at hc
    repeat' split at hc
    all_goals
      simp only [List.mem_cons, List.not_mem_nil, or_false] at hc
      first
        | (rcases hc with rfl | rfl <;> rfl)
        | (subst hc; rfl)
  | delete n =>
    unfold serve delete at hc
    dsimp only at hc
    repeat' split at hc
    all_goals
      simp only [List.mem_cons, List.not_mem_nil, or_false] at hc
      first
        | (rcases hc with rfl | rfl | rfl <;> rfl)
        | (rcases hc with rfl | rfl <;> rfl)
        | (subst hc; rfl)
  | post n f t =>
    unfold serve post upload at hc
    dsimp only at hc
    cases f
    all_goals
      repeat' split at hc
    all_goals
      simp at hc
      try (first | (subst hc; rfl) | (rcases hc with rfl | rfl <;> rfl))
  | ls n o l =>
    unfold serve ls at hc
    dsimp only at hc
    repeat' split at hc
    all_goals
      simp only [List.mem_cons, List.not_mem_nil, or_false] at hc
      first
        | (rcases hc with rfl | rfl | rfl | rfl <;> rfl)
        | (rcases hc with rfl | rfl <;> rfl)
        | (subst hc; rfl)

/-! ## Reading -/

theorem lines_flatten : ∀ t : List Char, (lines t).flatten = t
  | [] => rfl
  | c :: t => by
    have ih := lines_flatten t
    unfold lines
    by_cases hc : c = '\n'
    · rw [if_pos hc, List.flatten_cons, ih, hc]; rfl
    · rw [if_neg hc]
      cases hl : lines t with
      | nil => rw [hl] at ih; rw [← ih]; rfl
      | cons l ls => rw [hl] at ih; rw [← ih]; rfl

/-- The lines of a text are lines. -/
theorem lines_are : ∀ t : List Char, AreLines (lines t)
  | [] => ⟨by simp [lines], by simp [lines], by simp [lines]⟩
  | c :: t => by
    have ih := lines_are t
    unfold lines
    by_cases hc : c = '\n'
    · rw [if_pos hc]
      refine ⟨?_, ?_, ?_⟩
      · intro l hl
        rcases List.mem_cons.1 hl with rfl | hl
        · exact ⟨[], by simp, Or.inl rfl⟩
        · exact ih.1 l hl
      · intro l hl
        cases hq : lines t with
        | nil => rw [hq] at hl; simp at hl
        | cons a b =>
          rw [hq, List.dropLast_cons_of_ne_nil (by simp)] at hl
          rcases List.mem_cons.1 hl with rfl | hl
          · rfl
          · exact ih.2.1 l (by rw [hq]; exact hl)
      · intro l hl
        rcases List.mem_cons.1 hl with rfl | hl
        · simp
        · exact ih.2.2 l hl
    · rw [if_neg hc]
      cases hq : lines t with
      | nil =>
        dsimp only
        refine ⟨?_, by simp, by simp⟩
        intro l hl
        rw [List.mem_singleton.1 hl]
        exact ⟨[c], by simpa using hc, Or.inr rfl⟩
      | cons a b =>
        dsimp only
        rw [hq] at ih
        refine ⟨?_, ?_, ?_⟩
        · intro l hl
          rcases List.mem_cons.1 hl with rfl | hl
          · obtain ⟨u, hu, e⟩ := ih.1 a List.mem_cons_self
            refine ⟨c :: u, ?_, ?_⟩
            · intro x hx
              rcases List.mem_cons.1 hx with rfl | hx
              · exact hc
              · exact hu x hx
            · rcases e with e | e
              · exact Or.inl (by rw [e]; rfl)
              · exact Or.inr (by rw [e])
          · exact ih.1 l (List.mem_cons_of_mem _ hl)
        · intro l hl
          cases hb : b with
          | nil => rw [hb] at hl; simp at hl
          | cons d b' =>
            rw [hb, List.dropLast_cons_of_ne_nil (by simp)] at hl
            rcases List.mem_cons.1 hl with rfl | hl
            · have := ih.2.1 a (by rw [hb, List.dropLast_cons_of_ne_nil (by simp)]; exact List.mem_cons_self)
              have hne := ih.2.2 a List.mem_cons_self
              cases a with
              | nil => exact absurd rfl hne
              | cons y a => rw [List.getLast?_cons_cons]; exact this
            · exact ih.2.1 l (by rw [hb, List.dropLast_cons_of_ne_nil (by simp)]; exact List.mem_cons_of_mem _ hl)
        · intro l hl
          rcases List.mem_cons.1 hl with rfl | hl
          · simp
          · exact ih.2.2 l (List.mem_cons_of_mem _ hl)

/-- **C90.** A GET of a plain name: the content of that file when it is a file that the user can read; the last `k` lines with `tail` (not zero); otherwise an error. Nothing is
changed. -/
theorem get_exact (w : World) (fs : Files) (user name : List Char) (h : Plain name) (tail : Option Int) :
    (get w fs user name tail).files = fs ∧
    ((¬ ∃ n, fs (named name) = some n ∧ n.dir = false) → (get w fs user name tail).answer = .error 404) ∧
    (∀ n, fs (named name) = some n → n.dir = false →
      (w.readable user (named name) = false → (get w fs user name tail).answer = .error 403) ∧
      (w.readable user (named name) = true → tail = none → (get w fs user name tail).answer = .content n.text) ∧
      (∀ k : Nat, w.readable user (named name) = true → (tail = some (k : Int) ∨ tail = some (-(k : Int))) → 0 < k → ∃ a b, lines n.text = a ++ b ∧ b.length = min k (lines n.text).length ∧
        (get w fs user name tail).answer = .content b.flatten)) := by
  unfold get
  rw [path_plain h]
  dsimp only
  refine ⟨?_, ?_, ?_⟩
  · repeat' split
    all_goals rfl
  · intro hn
    rw [if_pos]
    unfold isFile
    cases hq : fs (named name) with
    | none => rfl
    | some n =>
      cases hd : n.dir with
      | true => simp [hd]
      | false => exact absurd ⟨n, hq, hd⟩ hn
  · intro n hn hd
    have hf : isFile fs (named name) = true := by
      unfold isFile; rw [hn]; simp [hd]
    rw [if_neg (by rw [hf]; simp)]
    refine ⟨?_, ?_, ?_⟩
    · intro hr; rw [if_pos hr]
    · intro hr ht
      rw [if_neg (by rw [hr]; simp), if_pos (Or.inl ht), hn]; rfl
    · intro k hr ht hk
      have hz : ¬ (tail = none ∨ tail = some 0) := by
        rintro (e | e) <;> rcases ht with e' | e' <;> rw [e] at e' <;> simp at e' <;> omega
      rw [if_neg (by rw [hr]; simp), if_neg hz, hn]
      have hk' : (tail.getD 0).natAbs = k := by
        rcases ht with e | e <;> rw [e] <;> simp
      rw [hk']
      refine ⟨(lines n.text).take ((lines n.text).length - k), (lines n.text).drop ((lines n.text).length - k), (List.take_append_drop _ _).symm, ?_, rfl⟩
      rw [List.length_drop]; omega

/-- The answer of a GET depends on one file. -/
theorem get_ext (w : World) {fs fs' : Files} (user name : List Char) (tail : Option Int) (h : fs (pathOf name) = fs' (pathOf name)) :
    (get w fs user name tail).answer = (get w fs' user name tail).answer := by
  have hf : isFile fs (pathOf name) = isFile fs' (pathOf name) := by unfold isFile; rw [h]
  unfold get
  dsimp only
  by_cases a : isFile fs' (pathOf name) = false
  · rw [if_pos (hf.trans a), if_pos a]
  · rw [if_neg (by rw [hf]; exact a), if_neg a]
    by_cases b : w.readable user (pathOf name) = false
    · rw [if_pos b, if_pos b]
    · rw [if_neg b, if_neg b, h]
      by_cases c : tail = none ∨ tail = some 0
      · rw [if_pos c, if_pos c]
      · rw [if_neg c, if_neg c]

/-! ## Changing -/

/-- **C90.** A DELETE of a plain name: the file and all that is below it are removed, nothing else; or an error and nothing is changed. -/
theorem delete_exact (w : World) (fs : Files) (user name : List Char) (h : Plain name) :
    (fs (named name) = none → (delete w fs user name).answer = .error 404 ∧ (delete w fs user name).files = fs) ∧
    (∀ n, fs (named name) = some n →
      (w.writable user (named name) = false → (delete w fs user name).answer = .error 403 ∧ (delete w fs user name).files = fs) ∧
      (w.writable user (named name) = true → w.rmOk user (named name) = false → (delete w fs user name).answer = .error 501) ∧
      (w.writable user (named name) = true → w.rmOk user (named name) = true → (delete w fs user name).answer = .done 204 ∧
        (∀ q, (q = named name ∨ ∃ t, q = named name ++ '/' :: t) → (delete w fs user name).files q = none) ∧
        (∀ q, q ≠ named name → (¬ ∃ t, q = named name ++ '/' :: t) → (delete w fs user name).files q = fs q))) := by
  unfold delete
  rw [path_plain h]
  dsimp only
  constructor
  · intro hn
    rw [if_pos (by unfold isThere; rw [hn]; rfl)]
    exact ⟨rfl, rfl⟩
  · intro n hn
    rw [if_neg (by unfold isThere; rw [hn]; simp)]
    refine ⟨?_, ?_, ?_⟩
    · intro hw; rw [if_pos hw]; exact ⟨rfl, rfl⟩
    · intro hw hr
      rw [if_neg (by rw [hw]; simp), if_pos hr]
    · intro hw hr
      rw [if_neg (by rw [hw]; simp), if_neg (by rw [hr]; simp)]
      have hu : ∀ q, under (named name) q = true ↔ q = named name ∨ ∃ t, q = named name ++ '/' :: t := by
        intro q
        unfold under
        rw [Bool.or_eq_true, beq_iff_eq, List.isPrefixOf_iff_prefix]
        constructor
        · rintro (e | ⟨t, e⟩)
          · exact Or.inl e
          · exact Or.inr ⟨t, by rw [← e, List.append_assoc]; rfl⟩
        · rintro (e | ⟨t, e⟩)
          · exact Or.inl e
          · exact Or.inr ⟨t, by rw [e, List.append_assoc]; rfl⟩
      refine ⟨rfl, ?_, ?_⟩
      · intro q hq
        exact if_pos ((hu q).2 hq)
      · intro q h1 h2
        refine if_neg ?_
        intro hq
        rcases (hu q).1 hq with e | e
        · exact h1 e
        · exact h2 e

/-- **C90.** A chmod of a plain name with an octal mode sets the mode of that file only; a mode with another character than a letter or a digit is refused. -/
theorem chmod_exact (w : World) (fs : Files) (user name mode : List Char) (h : Plain name) :
    (fs (named name) = none → (chmod w fs user name mode).answer = .error 404 ∧ (chmod w fs user name mode).files = fs) ∧
    (∀ n, fs (named name) = some n →
      ((mode = [] ∨ ∃ c ∈ mode, c.isAlphanum = false) → (chmod w fs user name mode).answer = .error 400 ∧ (chmod w fs user name mode).files = fs) ∧
      (mode ≠ [] → (∀ c ∈ mode, c.isAlphanum = true) → w.chmodOk user mode (named name) = false →
        (chmod w fs user name mode).answer = .error 500 ∧ (chmod w fs user name mode).files = fs) ∧
      (mode ≠ [] → (∀ c ∈ mode, c.isAlphanum = true) → w.chmodOk user mode (named name) = true →
        (chmod w fs user name mode).answer = .done 202 ∧ (chmod w fs user name mode).files (named name) = some ⟨n.dir, n.text, mode⟩ ∧
        ∀ q, q ≠ named name → (chmod w fs user name mode).files q = fs q)) := by
  have hm : (mode ≠ [] → (∀ c ∈ mode, c.isAlphanum = true) → alnum mode = true) := by
    intro h1 h2
    unfold alnum
    rw [Bool.and_eq_true]
    refine ⟨?_, List.all_eq_true.2 h2⟩
    cases mode with
    | nil => exact absurd rfl h1
    | cons _ _ => rfl
  have hm' : (mode = [] ∨ ∃ c ∈ mode, c.isAlphanum = false) → alnum mode = false := by
    rintro (rfl | ⟨c, hc, e⟩)
    · rfl
    · unfold alnum
      rw [Bool.and_eq_false_iff]
      refine Or.inr ?_
      rw [List.all_eq_false]
      exact ⟨c, hc, by rw [e]; simp⟩
  unfold chmod
  rw [path_plain h]
  dsimp only
  constructor
  · intro hn
    rw [if_pos (by unfold isThere; rw [hn]; rfl)]
    exact ⟨rfl, rfl⟩
  · intro n hn
    rw [if_neg (by unfold isThere; rw [hn]; simp)]
    refine ⟨?_, ?_, ?_⟩
    · intro hw; rw [if_pos (hm' hw)]; exact ⟨rfl, rfl⟩
    · intro h1 h2 hc
      rw [if_neg (by rw [hm h1 h2]; simp), if_pos hc]; exact ⟨rfl, rfl⟩
    · intro h1 h2 hc
      rw [if_neg (by rw [hm h1 h2]; simp), if_neg (by rw [hc]; simp)]
      refine ⟨rfl, ?_, ?_⟩
      · show (if named name = named name then (fs (named name)).map _ else _) = _
        rw [if_pos rfl, hn]; rfl
      · intro q hq
        exact if_neg hq

theorem mapM_some {α β : Type} (f : α → Option β) (g : α → β) : ∀ (l : List α), (∀ x ∈ l, f x = some (g x)) → l.mapM f = some (l.map g)
  | [], _ => rfl
  | x :: l, h => by
    rw [List.mapM_cons, h x List.mem_cons_self, mapM_some f g l (fun y hy => h y (List.mem_cons_of_mem _ hy))]
    rfl

/-- **C90 (partial).** When the names of the directory are those of the directory where the server runs, a listing is right: the page of the entries, in order. -/
theorem ls_partial (w : World) (fs : Files) (user name : List Char) (h : Plain name) (offset limit : Nat) (nodes : List Char → Node) (hd : isDir fs (named name) = true)
    (hr : w.readable user (named name) = true) (hne : w.here ≠ []) (hall : ∀ n ∈ w.here, fs (named name ++ '/' :: n) = some (nodes n)) (ho : offset ≤ w.here.length) :
    (ls w fs user name (offset : Int) limit).answer =
      .listing (((w.here.drop offset).take limit).length) offset (((w.here.drop offset).take limit).map (fun n => (n, nodes n))) := by
  have hs : stats fs (named name) w.here = some (w.here.map (fun n => (n, nodes n))) := by
    unfold stats
    rw [if_neg hne]
    exact mapM_some _ _ _ (fun n hn => by rw [hall n hn]; rfl)
  unfold ls
  rw [path_plain h]
  dsimp only
  rw [if_neg (by rw [hd]; simp), if_neg (by rw [hr]; simp), hs]
  dsimp only
  rw [if_neg (by rw [List.length_map]; omega)]
  simp [List.map_drop, List.map_take]

/-! ## What does not hold -/

/-- **C90 does not hold.** A file whose name has a `$`, a comma, a backquote or a space is never read: whatever is in the file that the user names, the answer is the same. -/
theorem special_name_violated (w : World) (fs : Files) (user name : List Char) (h : ¬ Plain name) (n : Node) (tail : Option Int) :
    (get w (fun q => if q = named name then some n else fs q) user name tail).answer = (get w fs user name tail).answer ∧
    (fs (pathOf name) = none → (get w (fun q => if q = named name then some n else fs q) user name tail).answer = .error 404) := by
  have hp : (fun q => if q = named name then some n else fs q) (pathOf name) = fs (pathOf name) := if_neg (path_other h)
  refine ⟨get_ext w user name tail hp, ?_⟩
  intro hn
  rw [get_ext w user name tail hp]
  unfold get
  dsimp only
  rw [if_pos (by unfold isFile; rw [hn]; rfl)]

/-- **C90 does not hold.** A DELETE can remove another file than the one that is named. -/
theorem delete_other_violated (w : World) (fs : Files) (user name : List Char) (h : ¬ Plain name) (n m : Node) (hn : fs (named name) = some n) (hm : fs (pathOf name) = some m)
    (hu : under (pathOf name) (named name) = false) (hw : w.writable user (pathOf name) = true) (hr : w.rmOk user (pathOf name) = true) :
    (delete w fs user name).answer = .done 204 ∧ (delete w fs user name).files (named name) = some n ∧ (delete w fs user name).files (pathOf name) = none ∧
    pathOf name ≠ named name := by
  unfold delete
  dsimp only
  rw [if_neg (by unfold isThere; rw [hm]; simp), if_neg (by rw [hw]; simp), if_neg (by rw [hr]; simp)]
  refine ⟨rfl, ?_, ?_, path_other h⟩
  · show (if under (pathOf name) (named name) then none else fs (named name)) = _
    rw [hu, hn]; rfl
  · show (if under (pathOf name) (pathOf name) then none else fs (pathOf name)) = _
    rw [if_pos]
    unfold under; simp

/-- The hypotheses of `delete_other_violated` can be met: `a b` and a file with a backslash. -/
example : ¬ Plain (txt "a b") ∧ pathOf (txt "a b") = txt "/a\\ b" ∧ under (pathOf (txt "a b")) (named (txt "a b")) = false := by
  refine ⟨?_, by decide +kernel, by decide +kernel⟩
  intro h
  exact (h ' ' (by decide +kernel)).2.2.2 rfl

/-- **C90 does not hold.** `~` is not the home directory. -/
theorem home_violated (s : List Char) (h : Plain s) : pathOf ('~' :: '/' :: s) = '/' :: '~' :: '/' :: s := by
  refine path_plain (s := '~' :: '/' :: s) ?_
  intro c hc
  rcases List.mem_cons.1 hc with rfl | hc
  · decide
  rcases List.mem_cons.1 hc with rfl | hc
  · decide
  exact h c hc

/-- **C90 does not hold.** No upload succeeds, and no file is created. -/
theorem upload_violated (fs : Files) (user name text : List Char) (force : Bool) :
    (post fs user name force (upload text)).files = fs ∧ ∃ n, (post fs user name force (upload text)).answer = .error n ∧ (n = 403 ∨ n = 400 ∨ n = 500) := by
  unfold post upload
  dsimp only
  by_cases h1 : force = false ∧ isFile fs (pathOf name) = true
  · rw [if_pos h1]; exact ⟨rfl, 403, rfl, Or.inl rfl⟩
  · rw [if_neg h1]
    by_cases h2 : name = []
    · rw [if_pos h2]; exact ⟨rfl, 400, rfl, Or.inr (Or.inl rfl)⟩
    · rw [if_neg h2, if_pos rfl]; exact ⟨rfl, 500, rfl, Or.inr (Or.inr rfl)⟩

/-- An upload that the server could pass to the command would create the file, and would not replace an existing one without `force`. -/
theorem usable_upload (fs : Files) (user name text : List Char) (h : Plain name) (hn : name ≠ []) (force : Bool) :
    (isFile fs (named name) = true → force = false → (post fs user name force ⟨text, true⟩).answer = .error 403 ∧ (post fs user name force ⟨text, true⟩).files = fs) ∧
    (isFile fs (named name) = false ∨ force = true → (post fs user name force ⟨text, true⟩).answer = .done 200 ∧
      ((post fs user name force ⟨text, true⟩).files (named name)).map (·.text) = some text ∧
      ∀ q, q ≠ named name → (post fs user name force ⟨text, true⟩).files q = fs q) := by
  unfold post
  rw [path_plain h]
  dsimp only
  constructor
  · intro h1 h2
    rw [if_pos ⟨h2, h1⟩]; exact ⟨rfl, rfl⟩
  · intro h1
    rw [if_neg, if_neg hn, if_neg (by simp)]
    · refine ⟨rfl, ?_, ?_⟩
      · show (if named name = named name then some _ else _ : Option Node).map _ = _
        rw [if_pos rfl]; rfl
      · intro q hq; exact if_neg hq
    · rintro ⟨a, b⟩
      rcases h1 with h1 | h1
      · rw [h1] at b; cases b
      · rw [h1] at a; cases a

/-- **C90 does not hold.** `tail=0` gives the whole file. -/
theorem tail_zero_violated (w : World) (fs : Files) (user name : List Char) :
    (get w fs user name (some 0)).answer = (get w fs user name none).answer := by
  unfold get
  simp

/-- **C90 does not hold.** A symbolic mode (`u+x`) is always refused. -/
theorem symbolic_mode_violated (w : World) (fs : Files) (user name a b : List Char) (op : Char) (ho : op = '+' ∨ op = '-' ∨ op = '=') :
    ∃ n, (chmod w fs user name (a ++ op :: b)).answer = .error n ∧ (chmod w fs user name (a ++ op :: b)).files = fs := by
  have : alnum (a ++ op :: b) = false := by
    unfold alnum
    rw [Bool.and_eq_false_iff]
    refine Or.inr ?_
    rw [List.all_eq_false]
    refine ⟨op, by simp, ?_⟩
    rcases ho with rfl | rfl | rfl <;> decide
  unfold chmod
  dsimp only
  by_cases h : isThere fs (pathOf name) = false
  · rw [if_pos h]; exact ⟨404, rfl, rfl⟩
  · rw [if_neg h, if_pos this]; exact ⟨400, rfl, rfl⟩

/-- **C90 does not hold.** A listing is about the names of the directory of the server, not about those of the directory that is asked: its names are never others. -/
theorem ls_violated (w : World) (fs : Files) (user name : List Char) (offset : Int) (limit : Nat) (total o : Nat) (items : List (List Char × Node))
    (h : (ls w fs user name offset limit).answer = .listing total o items) :
    items.map (·.1) = (w.here.drop o).take limit ∧ total = items.length ∧ ∀ n ∈ w.here, (fs (pathOf name ++ '/' :: n)).isSome = true := by
  unfold ls at h
  dsimp only at h
  split at h
  · cases h
  split at h
  · cases h
  cases hs : stats fs (pathOf name) w.here with
  | none => rw [hs] at h; cases h
  | some l =>
    rw [hs] at h
    dsimp only at h
    split at h
    · cases h
    · rename_i hcond
      clear hcond
      have hl : l.map (·.1) = w.here ∧ ∀ n ∈ w.here, (fs (pathOf name ++ '/' :: n)).isSome = true := by
        unfold stats at hs
        split at hs
        · cases hs
        · clear h
          generalize w.here = names at hs
          induction names generalizing l with
          | nil =>
            have : l = [] := by
              have : some [] = some l := hs
              exact (Option.some.inj this).symm
            rw [this]; exact ⟨rfl, by simp⟩
          | cons n names ih =>
            rw [List.mapM_cons] at hs
            cases hf : fs (pathOf name ++ '/' :: n) with
            | none => rw [hf] at hs; cases hs
            | some x =>
              cases hm : names.mapM (fun n => (fs (pathOf name ++ '/' :: n)).map (fun x => (n, x))) with
              | none => rw [hf, hm] at hs; cases hs
              | some l' =>
                rw [hf, hm] at hs
                have e : (n, x) :: l' = l := Option.some.inj hs
                have := ih l' hm
                rw [← e]
                refine ⟨by rw [List.map_cons, this.1], ?_⟩
                intro m hmm
                rcases List.mem_cons.1 hmm with rfl | hmm
                · rw [hf]; rfl
                · exact this.2 m hmm
      simp only [Answer.listing.injEq] at h
      obtain ⟨h1, h2, h3⟩ := h
      refine ⟨?_, ?_, hl.2⟩
      · rw [← h3, ← h2, List.map_take, List.map_drop, hl.1]
      · rw [← h1, ← h3]

/-- A world, and the files `/d` (a directory) and `/d/x`; the server runs in a directory with `core`. -/
def w0 : World := ⟨fun _ _ => true, fun _ _ => true, fun _ _ _ => true, fun _ _ => true, [txt "core"]⟩
def fs0 : Files := fun q => if q = txt "/d" then some ⟨true, [], txt "755"⟩ else if q = txt "/d/x" then some ⟨false, txt "un\ndeux\ntrois", txt "644"⟩ else none

/-- The directory `/d`, with its file, cannot be listed (500); its file can be read, with `tail` too, changed and removed. -/
theorem media_example :
    (ls w0 fs0 (txt "bob") (txt "d") 0 25).answer = .error 500 ∧
    (get w0 fs0 (txt "bob") (txt "d/x") none).answer = .content (txt "un\ndeux\ntrois") ∧
    (get w0 fs0 (txt "bob") (txt "d/x") (some 2)).answer = .content (txt "deux\ntrois") ∧
    (get w0 fs0 (txt "bob") (txt "d") none).answer = .error 404 ∧
    ((chmod w0 fs0 (txt "bob") (txt "d/x") (txt "600")).files (txt "/d/x")).map (·.mode) = some (txt "600") ∧
    (delete w0 fs0 (txt "bob") (txt "d")).files (txt "/d/x") = none := by
  refine ⟨?_, ?_, ?_, ?_, ?_, ?_⟩ <;> decide +kernel

/-- **The commands run.** The content is read by `cat` or `tail -n`, the mode changed by `chmod <mode>`, a file removed by `rm -rf`, on the path of the file only. -/
theorem commands_exact (w : World) (fs : Files) (user name mode : List Char) (n : Node) (h : fs (pathOf name) = some n) :
    (n.dir = false → w.readable user (pathOf name) = true →
      (get w fs user name none).cmds.getLast? = some ⟨user, [txt "cat", pathOf name]⟩ ∧
      ∀ k : Int, k ≠ 0 → (get w fs user name (some k)).cmds.getLast? = some ⟨user, [txt "tail", txt "-n", str k, pathOf name]⟩) ∧
    (mode ≠ [] → (∀ c ∈ mode, c.isAlphanum = true) → (chmod w fs user name mode).cmds.getLast? = some ⟨user, [txt "chmod", mode, pathOf name]⟩) ∧
    (w.writable user (pathOf name) = true → (delete w fs user name).cmds.getLast? = some ⟨user, [txt "rm", txt "-rf", pathOf name]⟩) := by
  have hthere : isThere fs (pathOf name) = true := by unfold isThere; rw [h]; rfl
  refine ⟨?_, ?_, ?_⟩
  · intro hd hr
    have hf : isFile fs (pathOf name) = true := by unfold isFile; rw [h]; simp [hd]
    constructor
    · unfold get
      dsimp only
      rw [if_neg (by rw [hf]; simp), if_neg (by rw [hr]; simp), if_pos (Or.inl rfl)]
      rfl
    · intro k hk
      unfold get
      dsimp only
      rw [if_neg (by rw [hf]; simp), if_neg (by rw [hr]; simp), if_neg (by simp [hk])]
      rfl
  · intro h1 h2
    have hm : alnum mode = true := by
      unfold alnum
      rw [Bool.and_eq_true]
      refine ⟨?_, List.all_eq_true.2 h2⟩
      cases mode with
      | nil => exact absurd rfl h1
      | cons => rfl
    unfold chmod
    dsimp only
    rw [if_neg (by rw [hthere]; simp), if_neg (by rw [hm]; simp)]
    split <;> rfl
  · intro hw
    unfold delete
    dsimp only
    rw [if_neg (by rw [hthere]; simp), if_neg (by rw [hw]; simp)]
    split <;> rfl

/-- A negative offset gives no listing. -/
theorem ls_negative (w : World) (fs : Files) (user name : List Char) (offset : Int) (limit : Nat) (h : offset < 0) : ∃ c, (ls w fs user name offset limit).answer = .error c := by
  unfold ls
  dsimp only
  split
  · exact ⟨_, rfl⟩
  · split
    · exact ⟨_, rfl⟩
    · split
      · exact ⟨_, rfl⟩
      · rw [if_pos (Or.inl h)]; exact ⟨_, rfl⟩

end Oar.Media
