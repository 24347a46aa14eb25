import Verif.Oarstat
import Verif.OarstatSpec
import Verif.ToolsProps

/-!
# Theorems about oarstat
-/

namespace Oar.Oarstat

open Oar.Tools
open Spec (readHms readDuration Request groupText requestText Order)

/-! ## The option -u -/

/-- Arguments without `-u` are kept as they are. -/
theorem user_plain (l : List T) (hne : l ≠ []) (h : ∀ a ∈ l, isUser a = false) : userOption l = some l := by
  induction l with
  | nil => exact absurd rfl hne
  | cons a r ih =>
    have ha := h a (List.mem_cons_self ..)
    cases r with
    | nil => simp [userOption, ha]
    | cons b r =>
      have := ih (by simp) (fun x hx => h x (List.mem_cons_of_mem _ hx))
      rw [userOption, this]
      simp [ha]

theorem user_before (pre : List T) (l t : List T) (hne : l ≠ []) (h : ∀ a ∈ pre, isUser a = false) (hl : userOption l = some t) :
    userOption (pre ++ l) = some (pre ++ t) := by
  induction pre with
  | nil => exact hl
  | cons a r ih =>
    have ha := h a (List.mem_cons_self ..)
    have hr := ih (fun x hx => h x (List.mem_cons_of_mem _ hx))
    cases hrl : r ++ l with
    | nil => simp at hrl; exact absurd hrl.2 hne
    | cons b r' =>
      rw [hrl] at hr
      show userOption (a :: (r ++ l)) = _
      rw [hrl, userOption, hr]
      simp [ha]

/-- **`-u` alone.** Without a name after it (it is the last argument, or an option follows), `-u` or `--user` is for the user of the command, and the other arguments are kept. -/
theorem user_flag (pre post : List T) (u : T) (hu : isUser u = true) (h1 : ∀ a ∈ pre, isUser a = false) (h2 : ∀ a ∈ post, isUser a = false)
    (h3 : ∀ b, post.head? = some b → b.head? = some '-') : userOption (pre ++ u :: post) = some (pre ++ u :: thisUser :: post) := by
  apply user_before _ _ _ (by simp) h1
  cases post with
  | nil => simp [userOption, hu]
  | cons b r =>
    have hb := h3 b rfl
    cases b with
    | nil => simp at hb
    | cons c b =>
      rw [userOption, user_plain _ (by simp) h2]
      have hc : c = '-' := by simpa using hb
      simp [hu, hc]

/-- **`-u` with a name.** The name is kept. -/
theorem user_named (pre post : List T) (u n : T) (c : Char) (h1 : ∀ a ∈ pre, isUser a = false) (hn : isUser (c :: n) = false) (hc : c ≠ '-') (h2 : ∀ a ∈ post, isUser a = false) :
    userOption (pre ++ u :: (c :: n) :: post) = some (pre ++ u :: (c :: n) :: post) := by
  apply user_before _ _ _ (by simp) h1
  rw [userOption, user_plain _ (by simp) (fun a ha => by
    rcases List.mem_cons.1 ha with h | h
    · rw [h]; exact hn
    · exact h2 a h)]
  simp [hc]

example : userOption [txt "oarstat", txt "-u", txt "-f"] = some [txt "oarstat", txt "-u", txt "_this_user_", txt "-f"] :=
  user_flag [txt "oarstat"] [txt "-f"] (txt "-u") (by decide +kernel) (by decide +kernel) (by decide +kernel) (by simp; decide +kernel)

/-- **Violation.** An empty name after `-u` makes the command raise before it reads its options. -/
theorem user_empty_violated (pre post : List T) (u : T) (hu : isUser u = true) (h1 : ∀ a ∈ pre, isUser a = false) :
    userOption (pre ++ u :: [] :: post) = none := by
  have h0 : userOption (u :: [] :: post) = none := by
    rw [userOption]
    cases userOption ([] :: post) with
    | none => rfl
    | some t => simp [hu]
  induction pre with
  | nil => exact h0
  | cons a r ih =>
    have hr := ih (fun x hx => h1 x (List.mem_cons_of_mem _ hx))
    cases hrl : r ++ u :: [] :: post with
    | nil => simp at hrl
    | cons b r' =>
      rw [hrl] at hr
      show userOption (a :: (r ++ u :: [] :: post)) = _
      rw [hrl, userOption, hr]

/-! ## The fields -/

theorem put_new (k v : T) (l : List (T × T)) (h : ∀ p ∈ l, p.1 ≠ k) : put k v l = l ++ [(k, v)] := by
  induction l with
  | nil => rfl
  | cons p r ih =>
    rw [put, if_neg (h p (List.mem_cons_self ..)), ih (fun q hq => h q (List.mem_cons_of_mem _ hq))]
    rfl

/-- A field asked: its column, its label if any. -/
def itemText (x : T × Option T) : T := match x.2 with | none => x.1 | some l => x.1 ++ ':' :: l

/-- What the table shows for it. -/
def itemLabel (x : T × Option T) : T := match x.2 with | none => x.1 | some l => l

/-- The attribute read. -/
def itemKey (key : T → Option T) (x : T × Option T) : Option T := if x.1 = txt "Duration" then some (txt "Duration") else key x.1

theorem item_split (x : T × Option T) (h1 : ∀ c ∈ x.1, c ≠ ':') (h2 : ∀ l, x.2 = some l → ∀ c ∈ l, c ≠ ':') :
    split ':' (itemText x) = match x.2 with | none => [x.1] | some l => [x.1, l] := by
  obtain ⟨a, b⟩ := x
  cases b with
  | none => exact split_nil_sep a ':' h1
  | some l =>
    show split ':' (a ++ ':' :: l) = _
    rw [split_cons_sep a l ':' h1, split_nil_sep l ':' (h2 l rfl)]

theorem fields_loop (key : T → Option T) (xs : List (T × Option T)) (acc : List (T × T)) (ks : List T)
    (hk : xs.map (itemKey key) = ks.map some) (hd : (acc.map (·.1) ++ ks).Nodup)
    (h : ∀ x ∈ xs, x.1 ≠ [] ∧ (∀ c ∈ x.1, c ≠ ':') ∧ ∀ l, x.2 = some l → ∀ c ∈ l, c ≠ ':') :
    fieldLoop key (xs.map itemText) acc = .ok (acc ++ ks.zip (xs.map itemLabel)) := by
  induction xs generalizing acc ks with
  | nil =>
    cases ks with
    | nil => simp [fieldLoop]
    | cons => simp at hk
  | cons x xs ih =>
    cases ks with
    | nil => simp at hk
    | cons k ks =>
      obtain ⟨h1, h2, h3⟩ := h x (List.mem_cons_self ..)
      have hk1 : itemKey key x = some k := by simpa using (List.cons.inj hk).1
      have hk2 : xs.map (itemKey key) = ks.map some := (List.cons.inj hk).2
      have hnew : ∀ p ∈ acc, p.1 ≠ k := by
        intro p hp e
        have := List.nodup_append.1 hd
        exact this.2.2 p.1 (List.mem_map_of_mem hp) k (List.mem_cons_self ..) e
      have hd' : ((acc ++ [(k, itemLabel x)]).map (·.1) ++ ks).Nodup := by simpa using hd
      have hih := ih (acc ++ [(k, itemLabel x)]) ks hk2 hd' (fun y hy => h y (List.mem_cons_of_mem _ hy))
      have hne : itemText x ≠ [] := by
        obtain ⟨a, b⟩ := x
        cases b with
        | none => exact h1
        | some l => intro e; unfold itemText at e; simp at e
      rw [List.map_cons, fieldLoop]
      rw [if_neg hne]
      dsimp only
      rw [item_split x h2 h3]
      have key1 : (if x.1 = txt "Duration" then fieldLoop key (xs.map itemText) (put x.1 (itemLabel x) acc)
          else match key x.1 with
            | none => Fields.raises
            | some k => fieldLoop key (xs.map itemText) (put k (itemLabel x) acc)) = .ok (acc ++ (k :: ks).zip (itemLabel x :: xs.map itemLabel)) := by
        unfold itemKey at hk1
        by_cases hD : x.1 = txt "Duration"
        · rw [if_pos hD] at hk1
          have : k = x.1 := by rw [hD]; simpa using hk1.symm
          rw [if_pos hD, ← this, put_new _ _ _ hnew, hih]
          simp
        · rw [if_neg hD] at hk1
          rw [if_neg hD, hk1]
          dsimp only
          rw [put_new _ _ _ hnew, hih]
          simp
      obtain ⟨a, b⟩ := x
      cases b with
      | none => exact key1
      | some l => exact key1

theorem split_join (xs : List T) (hne : xs ≠ []) (h : ∀ x ∈ xs, ∀ c ∈ x, c ≠ ',') : split ',' (List.intercalate [','] xs) = xs := by
  induction xs with
  | nil => exact absurd rfl hne
  | cons x r ih =>
    cases r with
    | nil => simpa [List.intercalate] using split_nil_sep x ',' (h x (List.mem_cons_self ..))
    | cons y r =>
      have e : List.intercalate [','] (x :: y :: r) = x ++ ',' :: List.intercalate [','] (y :: r) := by
        simp [List.intercalate, List.intersperse]
      rw [e, split_cons_sep _ _ _ (h x (List.mem_cons_self ..)), ih (by simp) (fun z hz => h z (List.mem_cons_of_mem _ hz))]

/-- **The fields asked are shown.** A list of different columns of the table of jobs, each with or without a label, gives exactly these columns, in this order, with their labels. -/
theorem fields_exact (key : T → Option T) (xs : List (T × Option T)) (ks : List T) (hne : xs ≠ []) (hk : xs.map (itemKey key) = ks.map some) (hd : ks.Nodup)
    (h : ∀ x ∈ xs, x.1 ≠ [] ∧ (∀ c ∈ x.1, c ≠ ':' ∧ c ≠ ',') ∧ ∀ l, x.2 = some l → ∀ c ∈ l, c ≠ ':' ∧ c ≠ ',') :
    parseFields key (List.intercalate [','] (xs.map itemText)) = .ok (ks.zip (xs.map itemLabel)) := by
  unfold parseFields
  rw [split_join _ (by simpa using hne)]
  · have := fields_loop key xs [] ks hk (by simpa using hd) (fun x hx => ⟨(h x hx).1, fun c hc => ((h x hx).2.1 c hc).1, fun l hl c hc => ((h x hx).2.2 l hl c hc).1⟩)
    simpa using this
  · intro t ht c hc
    obtain ⟨x, hx, e⟩ := List.mem_map.1 ht
    obtain ⟨_, h2, h3⟩ := h x hx
    subst e
    obtain ⟨a, b⟩ := x
    cases b with
    | none => exact (h2 c hc).2
    | some l =>
      rcases List.mem_append.1 hc with h' | h'
      · exact (h2 c h').2
      · rcases List.mem_cons.1 h' with h'' | h''
        · rw [h'']; decide
        · exact (h3 l rfl c h'').2

/-- The columns of the tests below. -/
def someKey (t : T) : Option T := if t = txt "job_id" then some (txt "id") else if t = txt "state" then some (txt "state") else none

example : parseFields someKey (txt "job_id:Job id,state,Duration:Time") = .ok [(txt "id", txt "Job id"), (txt "state", txt "state"), (txt "Duration", txt "Time")] := by
  decide +kernel

/-- **Violation.** A name that is no column makes the command raise: the error that is written for this case is never told. -/
theorem fields_unknown_violated (key : T → Option T) (n : T) (h0 : n ≠ []) (h : ∀ c ∈ n, c ≠ ':' ∧ c ≠ ',') (hD : n ≠ txt "Duration") (hk : key n = none) :
    parseFields key n = .raises := by
  unfold parseFields
  rw [split_nil_sep n ',' (fun c hc => (h c hc).2), fieldLoop, if_neg h0]
  dsimp only
  rw [split_nil_sep n ':' (fun c hc => (h c hc).1)]
  dsimp only
  rw [if_neg hD, hk]

/-- **Violation.** A column asked twice with two labels is shown once. -/
theorem fields_twice_violated : parseFields someKey (txt "state:a,state:b") = .ok [(txt "state", txt "b")] := by decide +kernel

/-! ## The duration -/

/-- **The duration of a job.** For a job started before now: the time since its start while it is launched, runs or finishes, the time it took once it is over. -/
theorem duration_partial (now : Int) (j : Api.Job) (h0 : j.start ≠ 0) (h1 : j.start < now) :
    ((j.state = "Running" ∨ j.state = "Launching" ∨ j.state = "Finishing") → duration now j = now - j.start) ∧
    ((j.state = "Terminated" ∨ j.state = "Error") → j.stop ≠ 0 → duration now j = j.stop - j.start) := by
  constructor
  · intro h
    unfold duration
    rw [if_pos ⟨h0, h1⟩, if_pos h]
  · intro h hs
    unfold duration
    rw [if_pos ⟨h0, h1⟩, if_neg, if_pos hs]
    rcases h with h | h <;> rw [h] <;> decide

/-- A job that was never started has no duration. -/
theorem duration_none (now : Int) (j : Api.Job) (h : j.start = 0) : durationText now j = txt "-" := by
  unfold durationText duration
  rw [if_neg (by rw [h]; simp)]

theorem two_read (n : Nat) (h : n < 100) : pyNat (two n) = some n := by
  have h1 := ch_spec (d := n / 10) (by omega)
  have h2 := ch_spec (d := n % 10) (by omega)
  unfold pyNat two
  rw [if_pos ⟨by simp, by simp [h1.2.1, h2.2.1]⟩]
  unfold val
  simp only [List.foldl]
  rw [h1.1, h2.1]
  congr 1
  omega

theorem digit_ne (c : Char) (h : c.isDigit = true) : c ≠ ':' ∧ c ≠ ',' ∧ c ≠ ' ' := by
  refine ⟨?_, ?_, ?_⟩ <;> rintro rfl <;> revert h <;> decide

theorem digits_all (n : Nat) : ∀ c ∈ digits n, c.isDigit = true := by
  have := (digits_spec n).2.1
  exact List.all_eq_true.1 this

theorem two_all (n : Nat) (h : n < 100) : ∀ c ∈ two n, c.isDigit = true := by
  have h1 := ch_spec (d := n / 10) (by omega)
  have h2 := ch_spec (d := n % 10) (by omega)
  intro c hc
  unfold two at hc
  rcases List.mem_cons.1 hc with h | h
  · rw [h]; exact h1.2.1
  · rw [List.mem_singleton.1 h]; exact h2.2.1

theorem hms_read (h m s : Nat) (hm : m < 100) (hs : s < 100) : readHms (digits h ++ ':' :: (two m ++ ':' :: two s)) = some (3600 * h + 60 * m + s) := by
  unfold readHms
  rw [split_cons_sep _ _ _ (fun c hc => (digit_ne c (digits_all h c hc)).1), split_cons_sep _ _ _ (fun c hc => (digit_ne c (two_all m hm c hc)).1),
    split_nil_sep _ _ (fun c hc => (digit_ne c (two_all s hs c hc)).1)]
  dsimp only
  rw [pyNat_digits, two_read m hm, two_read s hs]

theorem hms_comma (h m s : Nat) (hm : m < 100) (hs : s < 100) : ∀ c ∈ digits h ++ ':' :: (two m ++ ':' :: two s), c ≠ ',' := by
  intro c hc
  rcases List.mem_append.1 hc with h1 | h1
  · exact (digit_ne c (digits_all h c h1)).2.1
  · rcases List.mem_cons.1 h1 with h2 | h2
    · rw [h2]; decide
    · rcases List.mem_append.1 h2 with h3 | h3
      · exact (digit_ne c (two_all m hm c h3)).2.1
      · rcases List.mem_cons.1 h3 with h4 | h4
        · rw [h4]; decide
        · exact (digit_ne c (two_all s hs c h4)).2.1

theorem takeWhile_digits (n : Nat) (r : T) (h : ∀ c, r.head? = some c → c.isDigit = false) : (digits n ++ r).takeWhile Char.isDigit = digits n := by
  rw [List.takeWhile_append_of_pos (digits_all n)]
  cases r with
  | nil => simp
  | cons c r => rw [List.takeWhile_cons, if_neg (by rw [h c rfl]; simp)]; simp

/-- **The text of a duration tells the duration**, for all durations. -/
theorem duration_read (n : Nat) : readDuration (timedelta n) = some n := by
  have hm : n % 3600 / 60 < 100 := by omega
  have hs : n % 60 < 100 := by omega
  have hsum : 3600 * (n % 86400 / 3600) + 60 * (n % 3600 / 60) + n % 60 = n % 86400 := by omega
  unfold timedelta
  by_cases h0 : n / 86400 = 0
  · rw [if_pos h0]
    unfold readDuration
    rw [List.nil_append, split_nil_sep _ _ (hms_comma _ _ _ hm hs)]
    dsimp only
    rw [hms_read _ _ _ hm hs, hsum]
    congr 1
    omega
  · rw [if_neg h0]
    have key (w : T) (hw : ∀ c ∈ w, c ≠ ',') (hw2 : w.head? = some ' ') :
        readDuration (digits (n / 86400) ++ (w ++ [',', ' ']) ++ digits (n % 86400 / 3600) ++ ':' :: (two (n % 3600 / 60) ++ ':' :: two (n % 60))) = some n := by
      have e : digits (n / 86400) ++ (w ++ [',', ' ']) ++ digits (n % 86400 / 3600) ++ ':' :: (two (n % 3600 / 60) ++ ':' :: two (n % 60)) =
          (digits (n / 86400) ++ w) ++ ',' :: (' ' :: (digits (n % 86400 / 3600) ++ ':' :: (two (n % 3600 / 60) ++ ':' :: two (n % 60)))) := by simp
      rw [e]
      unfold readDuration
      rw [split_cons_sep _ _ _ (by
        intro c hc
        rcases List.mem_append.1 hc with h | h
        · exact (digit_ne c (digits_all _ c h)).2.1
        · exact hw c h),
        split_nil_sep _ _ (by
          intro c hc
          rcases List.mem_cons.1 hc with h | h
          · rw [h]; decide
          · exact hms_comma _ _ _ hm hs c h)]
      dsimp only
      rw [takeWhile_digits _ _ (by intro c hc; rw [hw2] at hc; cases hc; decide), pyNat_digits, List.drop_one, List.tail_cons, hms_read _ _ _ hm hs, hsum]
      dsimp only
      congr 1
      omega
    by_cases h1 : n / 86400 = 1
    · rw [if_pos h1]
      exact key (txt " day") (by decide +kernel) (by decide +kernel)
    · rw [if_neg h1]
      exact key (txt " days") (by decide +kernel) (by decide +kernel)

example : timedelta 180061 = txt "2 days, 2:01:01" := by decide +kernel

/-- **Violation.** A job that was started and is suspended, or is being resumed, has no duration. -/
theorem duration_suspended_violated (now : Int) (j : Api.Job) (h : j.state = "Suspended" ∨ j.state = "Resuming") (hs : j.stop = 0) : durationText now j = txt "-" := by
  have : duration now j = -1 := by
    unfold duration
    by_cases h0 : j.start ≠ 0 ∧ j.start < now
    · rw [if_pos h0, if_neg (by rcases h with h | h <;> rw [h] <;> decide), if_neg (by rw [hs]; simp)]
    · rw [if_neg h0]
  unfold durationText
  rw [this]
  rfl

/-! ## The exit status -/

/-- **The exit status.** A program that ends with a status other than zero: this status; one that is killed by a signal: the number of the signal, with or without core. -/
theorem exit_exact (n : Nat) : (0 < n → n < 256 → ∀ low, low < 256 → exitStatus (some (n * 256 + low)) = some n) ∧
    (n < 128 → exitStatus (some n) = some n ∧ exitStatus (some (n + 128)) = some n) := by
  constructor
  · intro h0 h1 low hl
    unfold exitStatus
    simp only [Option.map_some]
    have : (n * 256 + low) / 256 = n := by omega
    rw [this, if_pos (by omega)]
  · intro h
    unfold exitStatus
    simp only [Option.map_some]
    constructor
    · rw [if_neg (by omega)]; congr 1; omega
    · rw [if_neg (by omega)]; congr 1; omega

/-- **Violation.** A program killed by a signal is shown as one that ended by itself with this number. -/
theorem exit_ambiguous_violated (n : Nat) (h0 : 0 < n) (h : n < 128) : exitStatus (some n) = exitStatus (some (n * 256)) ∧ n ≠ n * 256 := by
  refine ⟨?_, by omega⟩
  rw [((exit_exact n).2 h).1]
  have := (exit_exact n).1 h0 (by omega) 0 (by omega)
  rw [Nat.add_zero] at this
  exact this.symm

/-! ## The request -/

theorem mem_key {α : Type} {x : T × α} {l : List (T × α)} (h : x ∈ l) : x.1 ∈ l.map (·.1) := List.mem_map.2 ⟨x, h, rfl⟩

theorem nodup_key {α : Type} (l : List (T × α)) (hd : (l.map (·.1)).Nodup) : ∀ g ∈ l, ∀ g2 ∈ l, g.1 = g2.1 → g = g2 := by
  induction l with
  | nil => intro g hg; simp at hg
  | cons x r ih =>
    have h1 : x.1 ∉ r.map (·.1) ∧ (r.map (·.1)).Nodup := List.nodup_cons.1 hd
    intro g hg g2 hg2 e
    rcases List.mem_cons.1 hg with a | a <;> rcases List.mem_cons.1 hg2 with b | b
    · rw [a, b]
    · rw [a] at e; exact absurd (by rw [e]; exact mem_key b) h1.1
    · rw [b] at e; exact absurd (by rw [← e]; exact mem_key a) h1.1
    · exact ih h1.2 g a g2 b e

theorem zipIdx_sorted {α : Type} (l : List α) : ∀ k, (l.zipIdx k).Pairwise (fun a b => a.2 ≤ b.2) := by
  induction l with
  | nil => intro k; simp
  | cons x r ih =>
    intro k
    rw [List.zipIdx_cons, List.pairwise_cons]
    refine ⟨?_, ih (k + 1)⟩
    intro b hb
    have := List.le_snd_of_mem_zipIdx hb
    dsimp only
    omega

/-- The rows of a request: the levels of each group are numbered in their order. -/
def levelsOf (g : T × List (T × Int)) : List Level := g.2.zipIdx.map (fun l => { prop := g.1, ord := l.2, typ := l.1.1, value := l.1.2 })

/-- A request is recorded for an alternative: its rows, in any order. -/
def Stored (r : Requests) (mold : Nat) (q : Request) : Prop := (rowsOf r mold).Perm (q.flatMap levelsOf)

theorem levels_fold (ls : List (T × Int)) (k : Nat) (p tmp : T) :
    ((ls.zipIdx k).map (fun l => ({ prop := p, ord := l.2, typ := l.1.1, value := l.1.2 } : Level))).foldl formatStep (tmp, p) =
      (tmp ++ ls.flatMap (fun l => '/' :: l.1 ++ '=' :: str l.2), p) := by
  induction ls generalizing k tmp with
  | nil => simp
  | cons l r ih =>
    rw [List.zipIdx_cons, List.map_cons, List.foldl_cons]
    have : formatStep (tmp, p) { prop := p, ord := k, typ := l.1, value := l.2 } = (tmp ++ '/' :: l.1 ++ '=' :: str l.2, p) := by
      simp [formatStep]
    rw [this, ih]
    simp

theorem group_fold (g : T × List (T × Int)) (tmp grp : T) (hne : g.2 ≠ []) (h : g.1 = [] → tmp = [] ∧ grp = []) (hg : g.1 ≠ [] → grp ≠ g.1) :
    (levelsOf g).foldl formatStep (tmp, grp) = ((if tmp ≠ [] then tmp ++ ['+'] else tmp) ++ groupText g, g.1) := by
  obtain ⟨p, ls⟩ := g
  cases ls with
  | nil => exact absurd rfl hne
  | cons l r =>
    unfold levelsOf
    dsimp only at h hg ⊢
    by_cases hp : p = []
    · obtain ⟨h1, h2⟩ := h hp
      subst hp h1 h2
      rw [levels_fold]
      simp [groupText]
    · rw [List.zipIdx_cons, List.map_cons, List.foldl_cons]
      have : formatStep (tmp, grp) { prop := p, ord := 0, typ := l.1, value := l.2 } =
          ((if tmp ≠ [] then tmp ++ ['+'] else tmp) ++ '{' :: p ++ ['}'] ++ '/' :: l.1 ++ '=' :: str l.2, p) := by
        unfold formatStep
        dsimp only
        rw [if_pos ⟨hp, hg hp⟩]
      rw [this, levels_fold]
      simp [groupText, hp]

theorem groupText_ne (g : T × List (T × Int)) (hne : g.2 ≠ []) : groupText g ≠ [] := by
  obtain ⟨p, ls⟩ := g
  cases ls with
  | nil => exact absurd rfl hne
  | cons l r => simp [groupText]

theorem fold_groups (q : Request) (tmp grp : T) (hne : ∀ g ∈ q, g.2 ≠ []) (hd : (q.map (·.1)).Nodup) (he : ∀ g ∈ q, g.1 ≠ []) (hg : ∀ g ∈ q, g.1 ≠ grp) (ht : tmp ≠ []) :
    ((q.flatMap levelsOf).foldl formatStep (tmp, grp)).1 = if q = [] then tmp else tmp ++ '+' :: requestText q := by
  induction q generalizing tmp grp with
  | nil => simp
  | cons g r ih =>
    have h1 : g.1 ∉ r.map (·.1) ∧ (r.map (·.1)).Nodup := List.nodup_cons.1 hd
    rw [List.flatMap_cons, List.foldl_append, group_fold g tmp grp (hne g (List.mem_cons_self ..)) (fun e => absurd e (he g (List.mem_cons_self ..)))
      (fun _ e => hg g (List.mem_cons_self ..) e.symm), if_pos ht]
    rw [ih _ _ (fun x hx => hne x (List.mem_cons_of_mem _ hx)) h1.2 (fun x hx => he x (List.mem_cons_of_mem _ hx))
      (fun x hx e => h1.1 (by rw [← e]; exact mem_key hx)) (by simp)]
    rw [if_neg (by simp : ¬ (g :: r) = [])]
    cases r with
    | nil => simp [requestText]
    | cons y r => rw [if_neg (by simp)]; simp [requestText]

/-- The text of a request whose groups have different properties, only the first one being without. -/
theorem format_groups (q : Request) (hne : ∀ g ∈ q, g.2 ≠ []) (hd : (q.map (·.1)).Nodup) (he : ∀ g ∈ q.drop 1, g.1 ≠ []) :
    format (q.flatMap levelsOf) = requestText q := by
  cases q with
  | nil => rfl
  | cons g r =>
    unfold format
    have h1 : g.1 ∉ r.map (·.1) ∧ (r.map (·.1)).Nodup := List.nodup_cons.1 hd
    rw [List.flatMap_cons, List.foldl_append, group_fold g [] [] (hne g (List.mem_cons_self ..)) (fun _ => ⟨rfl, rfl⟩) (fun h e => h e.symm)]
    rw [fold_groups r _ _ (fun x hx => hne x (List.mem_cons_of_mem _ hx)) h1.2 (by simpa using he)
      (fun x hx e => h1.1 (by rw [← e]; exact mem_key hx)) (by simpa using groupText_ne g (hne g (List.mem_cons_self ..)))]
    cases r with
    | nil => simp [requestText]
    | cons y r => rw [if_neg (by simp)]; simp [requestText]

theorem levels_prop (g : T × List (T × Int)) (l : Level) (h : l ∈ levelsOf g) : l.prop = g.1 ∧ g.2[l.ord]? = some (l.typ, l.value) := by
  unfold levelsOf at h
  obtain ⟨x, hx, e⟩ := List.mem_map.1 h
  subst e
  refine ⟨rfl, ?_⟩
  dsimp only
  exact List.mem_zipIdx_iff_getElem?.1 hx

/-- **The request shown is the one recorded.** For a request whose groups have different properties, recorded in any order, the text is the one a user would write, its groups in the order
of their properties. -/
theorem actual_partial (le : T → T → Bool) (ho : Order le) (r : Requests) (mold : Nat) (q : Request) (hs : Stored r mold q) (hne : ∀ g ∈ q, g.2 ≠ []) (hd : (q.map (·.1)).Nodup) :
    ∃ q' : Request, q'.Perm q ∧ q'.Pairwise (fun a b => le a.1 b.1 = true) ∧ actual le r mold = requestText q' := by
  let cmp := fun (a b : T × List (T × Int)) => le a.1 b.1
  have hsorted : (q.mergeSort cmp).Pairwise (fun a b => le a.1 b.1 = true) :=
    List.pairwise_mergeSort (fun a b c => ho.trans a.1 b.1 c.1) (fun a b => by
      rcases ho.total a.1 b.1 with h | h
      · simp [h]
      · simp [h]) q
  have hperm : (q.mergeSort cmp).Perm q := List.mergeSort_perm q cmp
  refine ⟨q.mergeSort cmp, hperm, hsorted, ?_⟩
  generalize q.mergeSort cmp = q' at hsorted hperm
  have hd' : (q'.map (·.1)).Nodup := (hperm.map _).nodup_iff.2 hd
  have hne' : ∀ g ∈ q', g.2 ≠ [] := fun g hg => hne g (hperm.mem_iff.1 hg)
  have huniq : ∀ g ∈ q', ∀ g2 ∈ q', g.1 = g2.1 → g = g2 := by
    intro g hg g2 hg2 e
    exact nodup_key q' hd' g hg g2 hg2 e
  have hrows : (rowsOf r mold).mergeSort (leLevel le) = q'.flatMap levelsOf := by
    apply List.Perm.eq_of_pairwise (le := fun a b => leLevel le a b = true)
    · intro a b ha hb h1 h2
      have ha' : a ∈ q'.flatMap levelsOf := (List.Perm.trans (List.mergeSort_perm _ _) (hs.trans (hperm.symm.flatMap_right _))).mem_iff.1 ha
      obtain ⟨g, hg, hag⟩ := List.mem_flatMap.1 ha'
      obtain ⟨g2, hg2, hbg⟩ := List.mem_flatMap.1 hb
      obtain ⟨a1, a2⟩ := levels_prop g a hag
      obtain ⟨b1, b2⟩ := levels_prop g2 b hbg
      by_cases e : a.prop = b.prop
      · have hgg : g = g2 := huniq g hg g2 hg2 (by rw [← a1, ← b1, e])
        unfold leLevel at h1 h2
        rw [if_pos e] at h1
        rw [if_pos e.symm] at h2
        have ho : a.ord = b.ord := by have := of_decide_eq_true h1; have := of_decide_eq_true h2; omega
        rw [hgg, ho, b2] at a2
        obtain ⟨p, o, t, v⟩ := a
        obtain ⟨p', o', t', v'⟩ := b
        simp at a2 e ho
        simp [a2, e, ho]
      · unfold leLevel at h1 h2
        rw [if_neg e] at h1
        rw [if_neg (fun h => e h.symm)] at h2
        exact absurd (ho.antisymm _ _ h1 h2) e
    · apply List.pairwise_mergeSort
      · intro a b c h1 h2
        unfold leLevel at *
        by_cases e1 : a.prop = b.prop <;> by_cases e2 : b.prop = c.prop
        · rw [if_pos e1] at h1; rw [if_pos e2] at h2; rw [if_pos (e1.trans e2)]
          have := of_decide_eq_true h1; have := of_decide_eq_true h2
          exact decide_eq_true (by omega)
        · rw [if_neg e2] at h2; rw [if_neg (by rw [e1]; exact e2), e1]; exact h2
        · rw [if_neg e1] at h1; rw [if_neg (by rw [← e2]; exact e1), ← e2]; exact h1
        · rw [if_neg e1] at h1; rw [if_neg e2] at h2
          have h3 := ho.trans _ _ _ h1 h2
          by_cases e3 : a.prop = c.prop
          · rw [← e3] at h2; exact absurd (ho.antisymm _ _ h1 h2) e1
          · rw [if_neg e3]; exact h3
      · intro a b
        unfold leLevel
        by_cases e : a.prop = b.prop
        · rw [if_pos e, if_pos e.symm]; simp; omega
        · rw [if_neg e, if_neg (fun h => e h.symm)]
          rcases ho.total a.prop b.prop with h | h <;> simp [h]
    · rw [List.pairwise_flatMap]
      constructor
      · intro g hg
        unfold levelsOf
        rw [List.pairwise_map]
        refine (zipIdx_sorted g.2 0).imp ?_
        intro a b h
        unfold leLevel
        rw [if_pos rfl]
        exact decide_eq_true h
      · have hboth : q'.Pairwise (fun a b => le a.1 b.1 = true ∧ a.1 ≠ b.1) := hsorted.and (List.pairwise_map.1 hd')
        refine hboth.imp ?_
        intro a b h x hx y hy
        have h1 := (levels_prop a x hx).1
        have h2 := (levels_prop b y hy).1
        unfold leLevel
        rw [if_neg (by rw [h1, h2]; exact h.2), h1, h2]
        exact h.1
    · exact (List.mergeSort_perm _ _).trans (hs.trans (hperm.symm.flatMap_right _))
  unfold actual
  rw [hrows]
  apply format_groups q' hne' hd'
  intro g hg hg1
  cases q' with
  | nil => simp at hg
  | cons x r' =>
    have hg : g ∈ r' := by simpa using hg
    have h1 := (List.pairwise_cons.1 hsorted).1 g hg
    rw [hg1] at h1
    have : x.1 = [] := ho.antisymm _ _ h1 (ho.empty _)
    have h2 : x.1 ∉ r'.map (·.1) := (List.nodup_cons.1 hd').1
    exact h2 (by rw [this, ← hg1]; exact mem_key hg)

/-- The order of the characters is such an order. -/
theorem order_le : Order (fun a b => decide (a ≤ b)) where
  total a b := by simpa using List.le_total a b
  trans a b c h1 h2 := by simp at *; exact List.le_trans h1 h2
  antisymm a b h1 h2 := by simp at *; exact List.le_antisymm h1 h2
  empty a := by simp

/-- A request of one group with a property and one without, recorded in the other order. -/
example : ∃ q' : Request, q'.Perm [(txt "gpu='YES'", [(txt "core", 3)]), ([], [(txt "host", 2), (txt "core", 4)])] ∧ q'.Pairwise (fun a b => decide (a.1 ≤ b.1) = true) ∧
    actual (fun a b => decide (a ≤ b)) { groups := [(2, 7, txt "gpu='YES'"), (1, 7, [])], levels := [(1, 0, txt "host", 2), (2, 0, txt "core", 3), (1, 1, txt "core", 4)] } 7 =
      requestText q' :=
  actual_partial _ order_le _ _ _ (by unfold Stored; rw [show rowsOf _ 7 = _ from rfl]; decide +kernel) (by decide +kernel) (by decide +kernel)

example : requestText [([], [(txt "host", 2), (txt "core", 4)]), (txt "gpu='YES'", [(txt "core", 3)])] = txt "/host=2/core=4+{gpu='YES'}/core=3" := by decide +kernel

/-- **Violation.** Two groups without property (`-l /host=1+/licence=2`) are shown as one group of two levels: the text is the one of another request. -/
theorem actual_merged_violated (le : T → T → Bool) (a b : T) (x y : Int) (mold : Nat) :
    actual le { groups := [(1, mold, []), (2, mold, [])], levels := [(1, 0, a, x), (2, 0, b, y)] } mold =
      requestText [([], [(a, x), (b, y)])] ∧
    Stored { groups := [(1, mold, []), (2, mold, [])], levels := [(1, 0, a, x), (2, 0, b, y)] } mold [([], [(a, x)]), ([], [(b, y)])] := by
  have e : rowsOf { groups := [(1, mold, []), (2, mold, [])], levels := [(1, 0, a, x), (2, 0, b, y)] } mold = [⟨[], 0, a, x⟩, ⟨[], 0, b, y⟩] := by
    simp [rowsOf]
  constructor
  · unfold actual
    rw [e]
    have : [(⟨[], 0, a, x⟩ : Level), ⟨[], 0, b, y⟩].mergeSort (leLevel le) = [⟨[], 0, a, x⟩, ⟨[], 0, b, y⟩] :=
      List.mergeSort_of_pairwise (by simp [leLevel])
    rw [this]
    simp [format, formatStep, requestText, groupText]
  · unfold Stored
    rw [e]
    simp [levelsOf]

/-! ## The condition of the user -/

theorem withSql_none (j : Api.Job) (pre post : Bool) : withSql none j pre post = (pre && post) := rfl

/-- Without condition, the jobs are those of the list of the API. -/
theorem sql_none (db : Api.Db) (f : Api.Filter) : jobs db f none = Api.jobsForUser db f := by
  unfold jobs Api.jobsForUser
  congr 1
  funext j
  have h1 : q1 db f none j = Api.q1 db f j := by
    unfold q1 Api.q1
    congr 1; funext a
    rw [Bool.eq_iff_iff]
    simp only [withSql_none, List.any_eq_true, Bool.and_eq_true]
    constructor
    · rintro ⟨m, hm, h⟩
      exact ⟨h.1.1.1, m, hm, ⟨⟨h.1.1.2, h.1.2⟩, h.2.1⟩, h.2.2⟩
    · rintro ⟨h0, m, hm, h⟩
      exact ⟨m, hm, ⟨⟨h0, h.1.1.1⟩, h.1.1.2⟩, h.1.2, h.2⟩
  have h2 : q2 db f none j = Api.q2 db f j := by
    unfold q2 Api.q2
    congr 1; funext p
    rw [Bool.eq_iff_iff]
    simp only [withSql_none, List.any_eq_true, Bool.and_eq_true]
    constructor
    · rintro ⟨v, hv, m, hm, h⟩
      exact ⟨⟨v, hv, h.1.1.1.1⟩, m, hm, ⟨⟨⟨h.1.1.1.2, h.1.1.2⟩, h.1.2⟩, h.2.1⟩, h.2.2⟩
    · rintro ⟨⟨v, hv, h0⟩, m, hm, h⟩
      exact ⟨v, hv, m, hm, ⟨⟨⟨h0, h.1.1.1.1⟩, h.1.1.1.2⟩, h.1.1.2⟩, h.1.2, h.2⟩
  have h3 : q3 f none j = Api.q3 f j := by
    unfold q3 Api.q3
    rw [withSql_none]
    simp [Bool.and_assoc]
  rw [h1, h2, h3]

theorem withSql_noOr (s : Sql) (j : Api.Job) (pre post : Bool) (h0 : s.text ≠ []) (h : Sql.NoOr s.text) :
    withSql (some s) j pre post = (Sql.holdsToks (s.val j) (Sql.lex s.text) && (pre && post)) := by
  unfold withSql
  dsimp only
  rw [if_neg h0]
  unfold combined
  rw [Sql.holdsToks_noOr _ _ h, Sql.splitTop_single .or _ 0 h]
  dsimp only
  cases pre <;> cases post <;> simp

theorem any_and {α : Type} (l : List α) (b : Bool) (p : α → Bool) : l.any (fun x => b && p x) = (b && l.any p) := by
  cases b <;> simp

/-- **A condition without OR restricts the list**: the jobs shown are those that would be shown without it and for which it holds. -/
theorem sql_exact (db : Api.Db) (f : Api.Filter) (s : Sql) (h0 : s.text ≠ []) (h : Sql.NoOr s.text) :
    ∀ j, j ∈ jobs db f (some s) ↔ j ∈ Api.jobsForUser db f ∧ Sql.Holds (s.val j) s.text := by
  intro j
  rw [← sql_none]
  unfold jobs
  rw [List.mem_filter, List.mem_filter]
  have e : (q1 db f (some s) j || q2 db f (some s) j || q3 f (some s) j) =
      (Sql.holdsToks (s.val j) (Sql.lex s.text) && (q1 db f none j || q2 db f none j || q3 f none j)) := by
    unfold q1 q2 q3
    simp only [withSql_noOr s j _ _ h0 h, withSql_none, any_and]
    cases Sql.holdsToks (s.val j) (Sql.lex s.text) <;> simp
  rw [e, Bool.and_eq_true]
  unfold Sql.Holds
  constructor
  · rintro ⟨a, b, c⟩; exact ⟨⟨a, c⟩, b⟩
  · rintro ⟨⟨a, c⟩, b⟩; exact ⟨a, b, c⟩

/-- The jobs of the tests below. -/
def someJobs : Api.Db :=
  { jobs := [{ id := 1, user := "bob", state := "Running", start := 5, submission := 1 }, { id := 2, user := "ann", state := "Waiting", submission := 2 },
      { id := 3, user := "ann", state := "Terminated", start := 5, stop := 9, submission := 3 }],
    molds := [], assigned := [], preds := [], visu := [], rids := [] }

def stateIs (j : Api.Job) (f : List Sql.Tok) : Bool := f == [.word (txt "state='" ++ j.state.toList ++ txt "'")]

example : (jobs someJobs { user := some "bob" } (some { text := txt "state='Running'", val := stateIs })).map (·.id) = [1] := by decide +kernel

/-- **Violation.** A condition with OR shows the jobs of the other users, and jobs that are over, though the list is asked for one user. -/
theorem sql_or_violated : (jobs someJobs { user := some "bob" } (some { text := txt "state='Running' OR state='Waiting'", val := stateIs })).map (fun j => (j.id, j.user)) =
    [(1, "bob"), (2, "ann")] ∧
  (jobs someJobs { user := some "bob" } (some { text := txt "state='Running' OR state='Waiting'", val := stateIs })).any (fun j => j.user != "bob") = true := by
  constructor <;> decide +kernel

/-! ## The command -/

/-- **States.** `oarstat -s` shows the state of every job named that exists, and of no other. -/
theorem states_exact (db : Api.Db) (ev : List Event) (o : Opts) (h : ¬ (o.ids ≠ [] ∧ o.array ≠ 0)) (he : o.events = false) (hs : o.state = true) (hn : named db o ≠ []) :
    ∃ l, oarstat db ev o = .states l ∧ ∀ i st, (i, st) ∈ l ↔ ∃ j ∈ db.jobs, j.id = i ∧ j.state = st ∧ (if o.array ≠ 0 then j.array = o.array ∨ (∃ k ∈ db.jobs, k.id = i ∧ k.array = o.array) else i ∈ o.ids) := by
  refine ⟨(db.jobs.filter (fun j => decide (j.id ∈ named db o))).map (fun j => (j.id, j.state)), ?_, ?_⟩
  · unfold oarstat
    rw [if_neg h, he, hs]
    simp [hn]
  · intro i st
    rw [List.mem_map]
    have key : ∀ j ∈ db.jobs, j.id = i → (j.id ∈ named db o ↔ if o.array ≠ 0 then j.array = o.array ∨ (∃ k ∈ db.jobs, k.id = i ∧ k.array = o.array) else i ∈ o.ids) := by
      intro j hj e
      unfold named
      by_cases ha : o.array ≠ 0
      · rw [if_pos ha, if_pos ha, List.mem_map]
        constructor
        · rintro ⟨k, hk, e2⟩
          have := List.mem_filter.1 hk
          exact Or.inr ⟨k, this.1, by rw [e2, e], by simpa using this.2⟩
        · rintro (h | ⟨k, hk, e2, e3⟩)
          · exact ⟨j, List.mem_filter.2 ⟨hj, by simpa using h⟩, rfl⟩
          · exact ⟨k, List.mem_filter.2 ⟨hk, by simpa using e3⟩, by rw [e2, e]⟩
      · rw [if_neg ha, if_neg ha, e]
    constructor
    · rintro ⟨j, hj, e⟩
      have hm := List.mem_filter.1 hj
      have e1 : j.id = i := congrArg Prod.fst e
      have e2 : j.state = st := congrArg Prod.snd e
      exact ⟨j, hm.1, e1, e2, (key j hm.1 e1).1 (by simpa using hm.2)⟩
    · rintro ⟨j, hj, e1, e2, h3⟩
      exact ⟨j, List.mem_filter.2 ⟨hj, by simpa using (key j hj e1).2 h3⟩, by rw [e1, e2]⟩

/-- **Events.** `oarstat -e` shows exactly the events of the jobs named, each as many times as it is recorded, by job and then by date. -/
theorem events_exact (db : Api.Db) (ev : List Event) (o : Opts) (h : ¬ (o.ids ≠ [] ∧ o.array ≠ 0)) (he : o.events = true) (hn : named db o ≠ []) :
    ∃ l, oarstat db ev o = .events l ∧ l.Perm (ev.filter (fun e => decide (e.job ∈ named db o))) ∧
      l.Pairwise (fun a b => a.job < b.job ∨ (a.job = b.job ∧ a.date ≤ b.date)) := by
  refine ⟨(ev.filter (fun e => decide (e.job ∈ named db o))).mergeSort leEvent, ?_, List.mergeSort_perm _ _, ?_⟩
  · unfold oarstat
    rw [if_neg h, he]
    simp [hn]
  · have := List.pairwise_mergeSort (le := leEvent) (fun a b c h1 h2 => by simp [leEvent] at *; omega) (fun a b => by simp [leEvent]; omega)
      (ev.filter (fun e => decide (e.job ∈ named db o)))
    refine this.imp ?_
    intro a b hab
    simpa [leEvent] using hab

/-- **Jobs.** Without these options, `oarstat` shows the jobs of the list (theorems of C58), restricted by the condition; a job asked by its number is shown, whatever its state,
if it is the user's one when a user is given. -/
theorem jobs_exact (db : Api.Db) (ev : List Event) (o : Opts) (h : ¬ (o.ids ≠ [] ∧ o.array ≠ 0)) (he : o.events = false) (hs : o.state = false) (hg : o.gantt = none) :
    oarstat db ev o = .jobs (jobs db { user := o.user, ids := o.ids, array := o.array } o.sql) := by
  unfold oarstat
  rw [if_neg h, he, hs, hg]
  simp

/-- `-j` and `-a` together are refused. -/
theorem conflict (db : Api.Db) (ev : List Event) (o : Opts) (h1 : o.ids ≠ []) (h2 : o.array ≠ 0) : oarstat db ev o = .conflict := by
  unfold oarstat
  rw [if_pos ⟨h1, h2⟩]

example : oarstat someJobs [⟨1, 2, 7, "A"⟩, ⟨2, 2, 5, "B"⟩, ⟨3, 1, 9, "C"⟩, ⟨4, 3, 1, "D"⟩] { ids := [1, 2], events := true } = .events [⟨3, 1, 9, "C"⟩, ⟨2, 2, 5, "B"⟩, ⟨1, 2, 7, "A"⟩] := by
  simp [oarstat, named, List.mergeSort, List.MergeSort.Internal.splitInTwo, leEvent]

/-- **Violation.** A job that does not exist is no error: nothing is shown and the status is the one of a success. -/
theorem unknown_violated (db : Api.Db) (ev : List Event) (i : Nat) (h : ∀ j ∈ db.jobs, j.id ≠ i) : oarstat db ev { ids := [i], state := true } = .states [] := by
  have : db.jobs.filter (fun j => decide (j.id ∈ [i])) = [] := by
    rw [List.filter_eq_nil_iff]
    intro j hj
    simpa using h j hj
  simp only [oarstat, named]
  simp
  exact h

/-- **Violation.** A text for `--gantt` that is not two dates makes the command raise. -/
theorem gantt_violated (db : Api.Db) (ev : List Event) (u : Option String) : oarstat db ev { user := u, gantt := some none } = .raises := rfl

/-! ## Further cases -/

/-- The option is `-u` or `--user`, and nothing else. -/
theorem user_words (a : T) : isUser a = true ↔ a = txt "-u" ∨ a = txt "--user" := by
  unfold isUser
  simp

/-- **A field with two colons or more is refused.** -/
theorem fields_colons (key : T → Option T) (a b r : T) (ha : ∀ c ∈ a, c ≠ ':' ∧ c ≠ ',') (hb : ∀ c ∈ b, c ≠ ':' ∧ c ≠ ',') (hr : ∀ c ∈ r, c ≠ ',') :
    parseFields key (a ++ ':' :: (b ++ ':' :: r)) = .error := by
  unfold parseFields
  rw [split_nil_sep _ ',' (by
    intro c hc
    simp only [List.mem_append, List.mem_cons] at hc
    rcases hc with h | rfl | h | rfl | h
    · exact (ha c h).2
    · decide
    · exact (hb c h).2
    · decide
    · exact hr c h), fieldLoop, if_neg (by simp)]
  dsimp only
  rw [split_cons_sep _ _ _ (fun c hc => (ha c hc).1), split_cons_sep _ _ _ (fun c hc => (hb c hc).1)]
  cases hsp : split ':' r with
  | nil =>
    exfalso
    cases r with
    | nil => cases hsp
    | cons x xs =>
      unfold split at hsp
      split at hsp
      · cases hsp
      · split at hsp <;> cases hsp
  | cons x y => rfl

example : parseFields someKey (txt "state:a:b") = .error := fields_colons someKey (txt "state") (txt "a") (txt "b") (by decide) (by decide) (by decide)

/-- **The text of the duration.** For a job over, started before now, the text read back is the time it took, zero included. -/
theorem duration_text (now : Int) (j : Api.Job) (h0 : j.start ≠ 0) (h1 : j.start < now) (hs : j.state = "Terminated" ∨ j.state = "Error") (h2 : j.stop ≠ 0) (h3 : j.start ≤ j.stop) :
    readDuration (durationText now j) = some (j.stop - j.start).toNat := by
  have h := (duration_partial now j h0 h1).2 hs h2
  unfold durationText
  rw [h, if_pos (by omega), duration_read]

example : durationText 50 { id := 1, user := "bob", state := "Error", start := 5, stop := 5, submission := 1 } = txt "0:00:00" := by decide +kernel

/-- **The request shown is the one of the alternative which was chosen**: the groups of the other alternatives, wherever they are recorded, change nothing. -/
theorem actual_alternative (le : T → T → Bool) (r : Requests) (mold : Nat) : actual le r mold = actual le { r with groups := r.groups.filter (fun g => g.2.1 == mold) } mold := by
  unfold actual rowsOf
  dsimp only
  rw [List.filter_filter]
  simp

theorem actual_other (le : T → T → Bool) (r : Requests) (mold : Nat) (gs : List (Nat × Nat × T)) (h : ∀ g ∈ gs, g.2.1 ≠ mold) :
    actual le { r with groups := r.groups ++ gs } mold = actual le r mold := by
  have e : gs.filter (fun g => g.2.1 == mold) = [] := by
    rw [List.filter_eq_nil_iff]
    intro g hg
    simpa using h g hg
  unfold actual rowsOf
  dsimp only
  rw [List.filter_append, e, List.append_nil]

/-- **Dates.** With `--gantt` and two dates, `oarstat` shows the jobs of the list between these dates (theorems of C58). -/
theorem gantt_exact (db : Api.Db) (ev : List Event) (u : Option String) (b e : Int) :
    oarstat db ev { user := u, gantt := some (some (b, e)) } = .jobs (Api.jobsForUser db { user := u, fromT := some b, toT := some e }) := by
  unfold oarstat
  simp [sql_none]

/-- The jobs of two users, inside and outside the dates 10 to 20. -/
def datedJobs : Api.Db :=
  { jobs := [{ id := 1, user := "bob", state := "Waiting", submission := 1 }, { id := 2, user := "bob", state := "Hold", submission := 1 },
      { id := 3, user := "ann", state := "Hold", submission := 15 }, { id := 4, user := "ann", state := "Waiting", submission := 15 }],
    molds := [], assigned := [], preds := [], visu := [], rids := [] }

/-- **Violation.** With a condition of two parts and dates, the dates do not apply to the first part and the user does not apply to the second one: a job out of the dates is shown, and a job of
another user. A job in the second part and out of the dates is not shown. -/
theorem sql_or_dates_violated :
    oarstat datedJobs []
      { user := some "bob", gantt := some (some (10, 20)), sql := some ⟨txt "state='Waiting' OR state='Hold'", stateIs⟩ } =
    Answer.jobs [{ id := 1, user := "bob", state := "Waiting", submission := 1 }, { id := 3, user := "ann", state := "Hold", submission := 15 }] := by
  decide +kernel

end Oar.Oarstat
