import Verif.WalltimeCli
import Verif.WalltimeProps
import Verif.ToolsProps

/-!
# C100: `oarwalltime` requests the change written, within the limits set for the queue
-/

namespace Oar.WalltimeCli

open Oar.Tools Oar.Walltime

/-! ## Specification -/

/-- A number in decimal. -/
def Numeral (t : List Char) (n : Nat) : Prop := t ≠ [] ∧ (∀ c ∈ t, c.isDigit = true) ∧ val t = n

/-- A duration written `h`, `h:m` or `h:m:s`, and its seconds. -/
inductive Clock : List Char → Int → Prop
  | h (h : List Char) (H : Nat) : Numeral h H → Clock h (3600 * H)
  | hm (h m : List Char) (H M : Nat) : Numeral h H → Numeral m M → Clock (h ++ ':' :: m) (3600 * H + 60 * M)
  | hms (h m s : List Char) (H M S : Nat) : Numeral h H → Numeral m M → Numeral s S → Clock (h ++ ':' :: (m ++ ':' :: s)) (3600 * H + 60 * M + S)

/-- The text says the change: a sign, a duration, perhaps an end of line. -/
def Says (t : List Char) (a : Asked) : Prop :=
  ∃ sg r nl, t = sg ++ (r ++ nl) ∧ Clock r a.seconds ∧ (nl = [] ∨ nl = ['\n']) ∧ ((sg = [] ∧ a.sign = 0) ∨ (sg = ['+'] ∧ a.sign = 1) ∨ (sg = ['-'] ∧ a.sign = -1))

/-- The value of a setting for a queue: the setting itself when it is a number, otherwise the entry of the queue in the dictionary written, or the entry `_`. -/
def Entry (ev : Eval) (setting : Atom) (queue : String) (x : Atom) : Prop :=
  match setting with
  | .str t => t ≠ [] ∧ ∃ d, ev t = some (some d) ∧ (d.lookup queue = some x ∨ (d.lookup queue = none ∧ d.lookup "_" = some x))
  | v => x = v

/-- The maximum of the documentation (oar/tools/oar.conf.in:407-413): a number of seconds, or a ratio of the walltime. -/
def Maximum (ev : Eval) (setting : Atom) (queue : String) (walltime : Int) (q : Rat) : Prop :=
  ∃ x, Entry ev setting queue x ∧ ((∃ n : Int, x = .int n ∧ q = n) ∨ (∃ f : Rat, x = .flt f ∧ ((0 < f ∧ f < 1 ∧ q = trunc (walltime * f)) ∨ (1 < f ∧ q = f))))

/-- The minimum of the documentation (oar/tools/oar.conf.in:415-417). -/
def Minimum (ev : Eval) (setting : Atom) (queue : String) (q : Rat) : Prop := ∃ x, Entry ev setting queue x ∧ number x = some q

/-- A list of users, possibly empty. -/
def List_ (ev : Eval) (setting : Atom) (queue : String) : Prop := setting = .str [] ∨ ∃ t, Entry ev setting queue (.str t)

/-- Settings with a value for the queue. -/
structure Sane (ev : Eval) (st : Settings) (queue : String) (walltime : Int) : Prop where
  max : ∃ q, Maximum ev st.maxIncrease queue walltime q
  min : ∃ q, Minimum ev st.minForChange queue q
  force : List_ ev st.forceUsers queue
  delay : List_ ev st.delayUsers queue

/-! ## The text -/

theorem pyNat_iff (t : List Char) (n : Nat) : pyNat t = some n ↔ Numeral t n := by
  unfold pyNat Numeral
  by_cases h : t ≠ [] ∧ t.all Char.isDigit
  · rw [if_pos h]
    have h2 : ∀ c ∈ t, c.isDigit = true := by simpa using h.2
    constructor
    · intro e; exact ⟨h.1, h2, by simpa using e⟩
    · intro e; rw [e.2.2]
  · rw [if_neg h]
    constructor
    · intro e; simp at e
    · intro e; exact absurd ⟨e.1, by simpa using e.2.1⟩ h

theorem split_plain (c : Char) : ∀ w : List Char, c ∉ w → split c w = [w]
  | [], _ => rfl
  | x :: xs, h => by
    simp only [List.mem_cons, not_or] at h
    unfold split
    rw [if_neg (fun e => h.1 e.symm), split_plain c xs h.2]

theorem split_append (c : Char) (v : List Char) : ∀ w : List Char, c ∉ w → split c (w ++ c :: v) = w :: split c v
  | [], _ => by simp [split]
  | x :: xs, h => by
    simp only [List.mem_cons, not_or] at h
    rw [List.cons_append]
    show (if x = c then [] :: split c (xs ++ c :: v) else match split c (xs ++ c :: v) with
      | [] => [[x]]
      | w :: ws => (x :: w) :: ws) = _
    rw [if_neg (fun e => h.1 e.symm), split_append c v xs h.2]

theorem join_split (c : Char) : ∀ t : List Char, List.intercalate [c] (split c t) = t ∧ split c t ≠ []
  | [] => by simp [split]
  | x :: xs => by
    obtain ⟨ih, hne⟩ := join_split c xs
    unfold split
    by_cases e : x = c
    · rw [if_pos e]
      refine ⟨?_, by simp⟩
      cases hs : split c xs with
      | nil => exact absurd hs hne
      | cons w ws =>
        rw [hs] at ih
        rw [← ih, e]
        simp [List.intercalate, List.intersperse]
    · rw [if_neg e]
      cases hs : split c xs with
      | nil => exact absurd hs hne
      | cons w ws =>
        rw [hs] at ih
        refine ⟨?_, by simp⟩
        rw [← ih]
        cases ws <;> simp [List.intercalate, List.intersperse]

theorem numeral_colon {t : List Char} {n : Nat} (h : Numeral t n) : ':' ∉ t := fun hm => by
  have := h.2.1 _ hm
  revert this; decide

theorem fields_iff (sg : Int) (t : List Char) (a : Asked) : fields sg t = some a ↔ Clock t a.seconds ∧ a.sign = sg := by
  constructor
  · intro h
    obtain ⟨hj, _⟩ := join_split ':' t
    unfold fields at h
    split at h
    · rename_i x hs
      rw [hs] at hj
      split at h
      · rename_i H h1
        simp only [Option.some.injEq] at h
        subst h
        have : x = t := by simpa [List.intercalate] using hj
        subst this
        refine ⟨?_, rfl⟩
        have := Clock.h x H ((pyNat_iff _ _).mp h1)
        rwa [mul_comm] at this
      · simp at h
    · rename_i x y hs
      rw [hs] at hj
      split at h
      · rename_i H M h1 h2
        simp only [Option.some.injEq] at h
        subst h
        have : x ++ ':' :: y = t := by simpa [List.intercalate, List.intersperse] using hj
        subst this
        refine ⟨?_, rfl⟩
        have := Clock.hm x y H M ((pyNat_iff _ _).mp h1) ((pyNat_iff _ _).mp h2)
        rwa [mul_comm, mul_comm 60] at this
      · simp at h
    · rename_i x y z hs
      rw [hs] at hj
      split at h
      · rename_i H M S h1 h2 h3
        simp only [Option.some.injEq] at h
        subst h
        have : x ++ ':' :: (y ++ ':' :: z) = t := by simpa [List.intercalate, List.intersperse] using hj
        subst this
        refine ⟨?_, rfl⟩
        have := Clock.hms x y z H M S ((pyNat_iff _ _).mp h1) ((pyNat_iff _ _).mp h2) ((pyNat_iff _ _).mp h3)
        rwa [mul_comm, mul_comm 60] at this
      · simp at h
    · simp at h
  · rintro ⟨hc, hs⟩
    obtain ⟨s, sec⟩ := a
    dsimp only at hc hs
    subst hs
    unfold fields
    cases hc with
    | h _ H h1 => rw [split_plain _ _ (numeral_colon h1)]; dsimp only; rw [(pyNat_iff _ _).mpr h1]; simp [mul_comm]
    | hm h m H M h1 h2 =>
      rw [split_append _ _ _ (numeral_colon h1), split_plain _ _ (numeral_colon h2)]
      dsimp only
      rw [(pyNat_iff _ _).mpr h1, (pyNat_iff _ _).mpr h2]; simp [mul_comm]
    | hms h m s H M S h1 h2 h3 =>
      rw [split_append _ _ _ (numeral_colon h1), split_append _ _ _ (numeral_colon h2), split_plain _ _ (numeral_colon h3)]
      dsimp only
      rw [(pyNat_iff _ _).mpr h1, (pyNat_iff _ _).mpr h2, (pyNat_iff _ _).mpr h3]; simp [mul_comm]

theorem clock_chars {t : List Char} {n : Int} (h : Clock t n) : t ≠ [] ∧ ∀ c ∈ t, c.isDigit = true ∨ c = ':' := by
  cases h with
  | h _ _ h1 => exact ⟨h1.1, fun c hc => Or.inl (h1.2.1 c hc)⟩
  | hm h m _ _ h1 h2 =>
    refine ⟨by simp, fun c hc => ?_⟩
    simp only [List.mem_append, List.mem_cons] at hc
    rcases hc with hc | hc | hc
    · exact Or.inl (h1.2.1 c hc)
    · exact Or.inr hc
    · exact Or.inl (h2.2.1 c hc)
  | hms h m s _ _ _ h1 h2 h3 =>
    refine ⟨by simp, fun c hc => ?_⟩
    simp only [List.mem_append, List.mem_cons] at hc
    rcases hc with hc | hc | hc | hc | hc
    · exact Or.inl (h1.2.1 c hc)
    · exact Or.inr hc
    · exact Or.inl (h2.2.1 c hc)
    · exact Or.inr hc
    · exact Or.inl (h3.2.1 c hc)

theorem chop_spec (t : List Char) : (chop t = t ∧ t.getLast? ≠ some '\n') ∨ t = chop t ++ ['\n'] := by
  unfold chop
  by_cases h : t.getLast? = some '\n'
  · right
    rw [if_pos h]
    exact (List.dropLast_append_getLast? '\n' h).symm
  · left; rw [if_neg h]; exact ⟨rfl, h⟩

theorem chop_append {t nl : List Char} (hc : ∀ c ∈ t, c ≠ '\n') (hn : nl = [] ∨ nl = ['\n']) : chop (t ++ nl) = t := by
  unfold chop
  rcases hn with rfl | rfl
  · rw [if_neg]
    · simp
    · intro h
      rw [List.append_nil] at h
      exact hc _ (List.mem_of_getLast? h) rfl
  · rw [if_pos (by simp)]; simp

/-- **C100.** The texts read by the command are exactly those which say a change: an optional sign, then `h`, `h:m` or `h:m:s` (and perhaps an end of line); the seconds are the ones
written. -/
theorem text_spec (t : List Char) (a : Asked) : parse t = some a ↔ Says t a := by
  constructor
  · intro h
    have key : ∃ nl, t = chop t ++ nl ∧ (nl = [] ∨ nl = ['\n']) := by
      rcases chop_spec t with ⟨h1, _⟩ | h1
      · exact ⟨[], by rw [h1]; simp, Or.inl rfl⟩
      · exact ⟨['\n'], h1, Or.inr rfl⟩
    obtain ⟨nl, hn, hnl⟩ := key
    unfold parse at h
    split at h
    · rename_i r hr
      obtain ⟨h1, h2⟩ := (fields_iff _ _ _).mp h
      exact ⟨['-'], r, nl, by rw [hn, hr]; simp, h1, hnl, Or.inr (Or.inr ⟨rfl, h2⟩)⟩
    · rename_i r hr
      obtain ⟨h1, h2⟩ := (fields_iff _ _ _).mp h
      exact ⟨['+'], r, nl, by rw [hn, hr]; simp, h1, hnl, Or.inr (Or.inl ⟨rfl, h2⟩)⟩
    · obtain ⟨h1, h2⟩ := (fields_iff _ _ _).mp h
      exact ⟨[], chop t, nl, by simpa using hn, h1, hnl, Or.inl ⟨rfl, h2⟩⟩
  · rintro ⟨sg, r, nl, rfl, hc, hnl, hs⟩
    obtain ⟨hne, hch⟩ := clock_chars hc
    have hr : ∀ c ∈ r, c ≠ '\n' := by
      intro c hm e
      subst e
      rcases hch _ hm with h | h <;> revert h <;> decide
    have hd : ∀ c ∈ sg, c ≠ '\n' := by
      rcases hs with ⟨rfl, _⟩ | ⟨rfl, _⟩ | ⟨rfl, _⟩ <;> simp
    have hch2 : chop (sg ++ (r ++ nl)) = sg ++ r := by
      rw [← List.append_assoc]
      refine chop_append ?_ hnl
      intro c hm
      rcases List.mem_append.mp hm with h | h
      · exact hd c h
      · exact hr c h
    have hminus : ∀ x, r ≠ '-' :: x := by
      intro x e
      have := hch '-' (by rw [e]; simp)
      revert this; decide
    have hplus : ∀ x, r ≠ '+' :: x := by
      intro x e
      have := hch '+' (by rw [e]; simp)
      revert this; decide
    unfold parse
    rw [hch2]
    rcases hs with ⟨rfl, h⟩ | ⟨rfl, h⟩ | ⟨rfl, h⟩
    · simp only [List.nil_append]
      exact (fields_iff _ _ _).mpr ⟨hc, h⟩
    · exact (fields_iff _ _ _).mpr ⟨hc, h⟩
    · exact (fields_iff _ _ _).mpr ⟨hc, h⟩

/-! ## The settings -/

theorem getConf_entry {ev : Eval} {s : Atom} {queue : String} {x : Atom} (hq : queue ≠ "") (h : Entry ev s queue x) (w : Option Int) :
    getConf ev s queue w = some (scaled w x) := by
  have key : raw ev s queue = some x := by
    cases s with
    | int n => rw [show x = .int n from h]; rfl
    | flt q => rw [show x = .flt q from h]; rfl
    | str t =>
      obtain ⟨hne, d, hd, hl⟩ := h
      unfold raw
      dsimp only
      rw [if_neg hne, hd]
      dsimp only
      congr 1
      unfold pick
      rcases hl with hl | ⟨hl, hu⟩
      · rw [if_pos ⟨hq, by rw [hl]; rfl⟩, hl]; rfl
      · rw [if_neg (by rw [hl]; simp), hu]; rfl
  unfold getConf
  rw [key]
  rfl

theorem maximum_floor {ev : Eval} {s : Atom} {queue : String} {w : Int} {q : Rat} (hw : 0 ≤ w) (hq : queue ≠ "") (h : Maximum ev s queue w q) :
    ∃ v q', getConf ev s queue (some w) = some v ∧ number v = some q' ∧ (q'.floor = -1 → q = -1) ∧ ((q'.floor : Rat) ≤ q) := by
  obtain ⟨x, hx, h⟩ := h
  rw [getConf_entry hq hx]
  rcases h with ⟨n, rfl, rfl⟩ | ⟨f, rfl, ⟨h0, h1, rfl⟩ | ⟨h1, rfl⟩⟩
  · exact ⟨_, n, rfl, rfl, by intro e; simp only [Rat.floor_intCast] at e; rw [e]; rfl, by simp⟩
  · by_cases hw0 : w = 0
    · subst hw0
      refine ⟨_, f, rfl, by simp [scaled, number], ?_, ?_⟩
      · intro e
        have : (0 : Int) ≤ f.floor := Rat.le_floor_iff.mpr (by simpa using le_of_lt h0)
        omega
      · have e0 : trunc ((0 : Int) * f) = 0 := by simp [trunc]; decide
        rw [e0]
        have : f.floor < 1 := Rat.floor_lt_iff.mpr (by simpa using h1)
        exact_mod_cast (by omega : f.floor ≤ 0)
    · refine ⟨_, (trunc ((w : Rat) * f) : Int), rfl, ?_, ?_, ?_⟩
      · simp only [scaled, Option.getD_some]
        rw [if_pos ⟨hw0, le_of_lt h1⟩]
        simp [number]
      · intro e
        simp only [Rat.floor_intCast] at e
        rw [e]; rfl
      · simp
  · refine ⟨_, q, rfl, ?_, ?_, ?_⟩
    · simp only [scaled, Option.getD_some]
      rw [if_neg (fun h => absurd h.2 (not_le.mpr h1))]
      simp [number]
    · intro e
      have : (1 : Int) ≤ q.floor := Rat.le_floor_iff.mpr (le_of_lt (by exact_mod_cast h1))
      omega
    · exact Rat.floor_le q

theorem minimum_number {ev : Eval} {s : Atom} {queue : String} {q : Rat} (hq : queue ≠ "") (h : Minimum ev s queue q) :
    ∃ v, getConf ev s queue none = some v ∧ number v = some q := by
  obtain ⟨x, hx, hn⟩ := h
  refine ⟨_, getConf_entry hq hx none, ?_⟩
  cases x <;> simpa [scaled] using hn

theorem list_users {ev : Eval} {s : Atom} {queue : String} (hq : queue ≠ "") (h : List_ ev s queue) : ∃ v l, getConf ev s queue none = some v ∧ users v = some l := by
  rcases h with rfl | ⟨t, ht⟩
  · exact ⟨.str [], _, rfl, rfl⟩
  · refine ⟨.str t, ?_⟩
    unfold users
    dsimp only
    split
    · exact ⟨_, getConf_entry hq ht none, rfl⟩
    · exact ⟨_, getConf_entry hq ht none, rfl⟩

/-! ## The command -/

theorem code_zero {a : Answer} : code a = 0 ↔ a = .accepted := by cases a <;> simp [code]

/-- The cases of a request that does not raise. -/
theorem requestT_cases {ev : Eval} {st : Settings} {job : Option (WJob × String)} {user : String} {new : List Char} {force delay : Bool} {now : Int} {row : Option Wtc}
    {x : Answer × Option Wtc} (h : requestT ev st job user new force delay now row = some x) :
    (x.1 ≠ .accepted ∧ x.2 = row) ∨ ∃ j queue a vmax vmin vf vd qmin qmax, job = some (j, queue) ∧ parse new = some a ∧ getConf ev st.maxIncrease queue (some j.walltime) = some vmax ∧
      getConf ev st.minForChange queue none = some vmin ∧ getConf ev st.forceUsers queue none = some vf ∧ getConf ev st.delayUsers queue none = some vd ∧
      number vmin = some qmin ∧ number vmax = some qmax ∧ (force = true → users vf ≠ none) ∧
      x = request ⟨st.enabled, fun _ => qmax.floor, qmin.ceil, (users vf).getD none, (users vd).getD none⟩ (some j) user (some a) force delay now row := by
  unfold requestT at h
  split at h
  · obtain rfl := Option.some.inj h; left; simp
  · split at h
    · obtain rfl := Option.some.inj h; left; simp
    · rename_i j queue
      split at h
      · obtain rfl := Option.some.inj h; left; simp
      · split at h
        · obtain rfl := Option.some.inj h; left; simp
        · split at h
          · rename_i vmax vmin vf vd e1 e2 e3 e4
            split at h
            · rename_i qmin qmax e5 e6
              split at h
              · obtain rfl := Option.some.inj h; left; simp
              · rename_i a ha
                split at h
                · simp at h
                · rename_i h1
                  split at h
                  · simp at h
                  · right
                    exact ⟨j, queue, a, vmax, vmin, vf, vd, qmin, qmax, rfl, ha, e1, e2, e3, e4, e5, e6, fun hf hn => h1 ⟨hf, hn⟩, (Option.some.inj h).symm⟩
            · simp at h
          · simp at h

/-- **C100** (the part proved). When `oarwalltime JOB CHANGE` exits with 0, the feature is enabled, the text says a change, the effective user owns the running job (or is an
administrator), the job lasts at least the minimum set for its queue, and the row recorded asks for this change, at most reduced so that the job does not end before now; the change and
what was recorded as granted do not exceed the maximum set for the queue. In all the other cases, exceptions included, nothing is recorded. -/
theorem command_partial (ev : Eval) (st : Settings) (oardo user : Option String) (known : Option Known) (now : Int) (row : Option Wtc) (args : Args) (hv : args.version = false)
    (hid : args.jobId.getD 0 ≠ 0) (hnew : args.new.getD [] ≠ []) :
    ((oarwalltime ev st oardo user known now row args).1 ≠ some 0 → (oarwalltime ev st oardo user known now row args).2 = row) ∧
    ((oarwalltime ev st oardo user known now row args).1 = some 0 →
      ∃ k u a r, known = some k ∧ effective oardo user = some u ∧ Says (args.new.getD []) a ∧ st.enabled = some "YES" ∧ Owner k.job u ∧ k.job.state = "Running" ∧
        (oarwalltime ev st oardo user known now row args).2 = some r ∧
        r.pending = max (relative a k.job.walltime) (now - (k.job.start + k.job.walltime + k.job.suspended)) ∧
        (k.queue ≠ "" → ∀ q, Minimum ev st.minForChange k.queue q → q ≤ k.job.walltime) ∧
        (k.queue ≠ "" → 0 ≤ k.job.walltime → ∀ q, Maximum ev st.maxIncrease k.queue k.job.walltime q →
          Admin u ∨ q = -1 ∨ (((row.map Wtc.granted).getD 0 + r.pending : Int) : Rat) ≤ q)) := by
  unfold oarwalltime
  rw [if_neg (by simp [hv]), if_neg hid, if_neg hnew]
  by_cases hp : parse (args.new.getD []) = none
  · rw [if_pos hp]; simp
  rw [if_neg hp]
  cases hu : effective oardo user with
  | none => simp
  | some u =>
    dsimp only
    cases hx : requestT ev st (known.map (fun k => (k.job, k.queue))) u (args.new.getD []) args.force args.delay now row with
    | none => simp
    | some x =>
      obtain ⟨ans, row'⟩ := x
      dsimp only
      rcases requestT_cases hx with ⟨h1, h2⟩ | ⟨j, queue, a, vmax, vmin, vf, vd, qmin, qmax, hj, ha, e1, e2, e3, e4, e5, e6, _, hr⟩
      · exact ⟨fun _ => h2, fun h => absurd (code_zero.mp (by simpa using h)) h1⟩
      · obtain ⟨hun, hacc⟩ := request_authorised ⟨st.enabled, fun _ => qmax.floor, qmin.ceil, (users vf).getD none, (users vd).getD none⟩ (some j) u (some a) args.force args.delay now row
        rw [← hr] at hun hacc
        dsimp only at hun hacc
        refine ⟨fun h => hun (fun e => h (by rw [e]; rfl)), fun h => ?_⟩
        have hans : ans = .accepted := code_zero.mp (by simpa using h)
        obtain ⟨g1, j', a', g2, g3, g4, g5, g6, _⟩ := hacc hans
        obtain rfl := Option.some.inj g2
        obtain ⟨r, b1, b2, _, _, _, b3⟩ := request_bounded ⟨st.enabled, fun _ => qmax.floor, qmin.ceil, (users vf).getD none, (users vd).getD none⟩ j u a args.force args.delay now row
          (by rw [← hr]; exact hans)
        rw [← hr] at b1
        obtain ⟨k, hk, hk2⟩ := Option.map_eq_some_iff.mp hj
        simp only [Prod.mk.injEq] at hk2
        obtain ⟨rfl, rfl⟩ := hk2
        refine ⟨k, u, a, r, hk, rfl, (text_spec _ _).mp ha, g1, g4, g5, b1, b2, fun hq q hm => ?_, fun hq hw q hm => ?_⟩
        · obtain ⟨v, m1, m2⟩ := minimum_number hq hm
          rw [e2] at m1
          obtain rfl := Option.some.inj m1
          rw [e5] at m2
          obtain rfl := Option.some.inj m2
          exact Rat.ceil_le_iff.mp g6
        · obtain ⟨v, q', m1, m2, m3, m4⟩ := maximum_floor hw hq hm
          rw [e1] at m1
          obtain rfl := Option.some.inj m1
          rw [e6] at m2
          obtain rfl := Option.some.inj m2
          rcases b3 with b3 | b3 | b3
          · exact Or.inl b3
          · exact Or.inr (Or.inl (m3 b3))
          · right; right
            refine le_trans ?_ m4
            exact_mod_cast b3

/-- **C100** (the part proved). When each setting has a value for the queue of the job and a user is known, a request never raises, and its exit status tells its outcome: 5 when the
feature is disabled, 4 for an unknown job, 3 for a refusal, 1 for a malformed text, 0 when it is recorded. -/
theorem command_total_partial (ev : Eval) (st : Settings) (oardo user : Option String) (known : Option Known) (now : Int) (row : Option Wtc) (args : Args) (hv : args.version = false)
    (hid : args.jobId.getD 0 ≠ 0) (hnew : args.new.getD [] ≠ []) (hu : (effective oardo user).isSome)
    (hs : ∀ k, known = some k → k.queue ≠ "" ∧ 0 ≤ k.job.walltime ∧ Sane ev st k.queue k.job.walltime) :
    ∃ c, (oarwalltime ev st oardo user known now row args).1 = some c ∧ (c = 1 ↔ ∀ a, ¬ Says (args.new.getD []) a) ∧
      ((∃ a, Says (args.new.getD []) a) → (c = 5 ↔ st.enabled ≠ some "YES") ∧ (c = 4 ↔ st.enabled = some "YES" ∧ known = none) ∧ (c = 5 ∨ c = 4 ∨ c = 3 ∨ c = 0)) := by
  obtain ⟨u, hu⟩ := Option.isSome_iff_exists.mp hu
  unfold oarwalltime
  rw [if_neg (by simp [hv]), if_neg hid, if_neg hnew, hu]
  cases hp : parse (args.new.getD []) with
  | none =>
    have hno : ∀ a, ¬ Says (args.new.getD []) a := fun a ha => by
      rw [(text_spec _ _).mpr ha] at hp; simp at hp
    exact ⟨1, by simp, ⟨fun _ => hno, fun _ => rfl⟩, fun ⟨a, ha⟩ => absurd ha (hno a)⟩
  | some a =>
    have hsays : Says (args.new.getD []) a := (text_spec _ _).mp hp
    rw [if_neg (by simp)]
    dsimp only
    have key : ∃ x, requestT ev st (known.map (fun k => (k.job, k.queue))) u (args.new.getD []) args.force args.delay now row = some x ∧ x.1 ≠ .badRequest ∧
        (x.1 = .disabled ↔ st.enabled ≠ some "YES") ∧ (x.1 = .notFound ↔ st.enabled = some "YES" ∧ known = none) := by
      unfold requestT
      by_cases he : st.enabled ≠ some "YES"
      · rw [if_pos he]; exact ⟨_, rfl, by simp, by simp [he], by simp [he]⟩
      · rw [if_neg he]
        have he' : st.enabled = some "YES" := by simpa using he
        cases known with
        | none => exact ⟨_, rfl, by simp, by simp [he'], by simp [he']⟩
        | some k =>
          obtain ⟨hq, hw, hs⟩ := hs k rfl
          dsimp only [Option.map_some]
          split
          · exact ⟨_, rfl, by simp, by simp [he'], by simp⟩
          rename_i ho
          split
          · exact ⟨_, rfl, by simp, by simp [he'], by simp⟩
          rename_i hr
          obtain ⟨qx, hmx⟩ := hs.max
          obtain ⟨qn, hmn⟩ := hs.min
          obtain ⟨vx, qx', x1, x2, _⟩ := maximum_floor hw hq hmx
          obtain ⟨vn, n1, n2⟩ := minimum_number hq hmn
          obtain ⟨vf, lf, f1, f2⟩ := list_users hq hs.force
          obtain ⟨vd, ld, d1, d2⟩ := list_users hq hs.delay
          rw [x1, n1, f1, d1]
          dsimp only
          rw [x2, n2, hp]
          dsimp only
          rw [if_neg (by rw [f2]; simp), if_neg (by rw [d2]; simp)]
          refine ⟨_, rfl, ?_⟩
          unfold request
          rw [if_neg he]
          dsimp only
          rw [if_neg ho, if_neg hr]
          repeat' split
          all_goals simp [he']
    obtain ⟨⟨ans, row'⟩, h1, h2, h3, h4⟩ := key
    rw [h1]
    dsimp only at h2 h3 h4 ⊢
    refine ⟨code ans, rfl, ⟨fun h => ?_, fun h => absurd hsays (h a)⟩, fun _ => ?_⟩
    · cases ans <;> simp [code] at h h2
    · rw [← h3, ← h4]
      cases ans <;> simp [code] at h2 ⊢

/-! ## Where the property fails -/

/-- The default value of `WALLTIME_MAX_INCREASE` (oar/lib/configuration.py:88). -/
def defaultMax : List Char := txt "{'default': 7200}"

/-- **C100** is violated with the default settings: for a running job of any queue but `default`, each well-formed request of its owner raises an exception (the documentation gives the
maximum 0 to these queues). -/
theorem default_violated (ev : Eval) (hev : ev defaultMax = some (some [("default", .int 7200)])) (st : Settings) (hen : st.enabled = some "YES") (hmax : st.maxIncrease = .str defaultMax)
    (k : Known) (hrun : k.job.state = "Running") (hq : k.queue ≠ "default") (u : String) (hown : Owner k.job u) (now : Int) (row : Option Wtc) (id : Int) (hid : id ≠ 0)
    (new : List Char) (a : Asked) (hsays : Says new a) (force delay : Bool) :
    oarwalltime ev st (some u) none (some k) now row ⟨some id, some new, force, delay, false⟩ = (none, row) := by
  have hne : new ≠ [] := by
    rintro rfl
    obtain ⟨sg, r, nl, h, hc, _⟩ := hsays
    have h2 := (clock_chars hc).1
    simp only [List.nil_eq, List.append_eq_nil_iff] at h
    exact h2 h.2.1
  have hreq : requestT ev st (some (k.job, k.queue)) u new force delay now row = none := by
    unfold requestT
    rw [if_neg (by rw [hen]; simp)]
    dsimp only
    rw [if_neg (by
      rintro ⟨h1, h2, h3⟩
      rcases hown with h | h | h
      · exact h1 h.symm
      · exact h2 h
      · exact h3 h), if_neg (by simp [hrun])]
    have hm : getConf ev st.maxIncrease k.queue (some k.job.walltime) = some (.str defaultMax) := by
      unfold getConf raw
      rw [hmax]
      dsimp only
      rw [if_neg (by decide), hev]
      dsimp only
      unfold pick
      have : List.lookup k.queue [("default", Atom.int 7200)] = none := by
        rw [List.lookup_cons]
        rw [show (k.queue == "default") = false from by simpa using hq]
        rfl
      rw [this, if_neg (by simp), show List.lookup "_" [("default", Atom.int 7200)] = none from by decide]
      rfl
    rw [hm]
    split
    · rename_i vmax vmin vf vd e1 _ _ _
      obtain rfl := Option.some.inj e1
      split
      · rename_i e5
        simp [number] at e5
      · rfl
    · rfl
  unfold oarwalltime
  simp only [Bool.false_eq_true, if_false, Option.getD_some]
  rw [if_neg hid, if_neg hne, if_neg (by rw [(text_spec _ _).mpr hsays]; simp)]
  dsimp only [effective, Option.map_some]
  rw [hreq]

/-- **C100** is violated when all the users may force the changes as the documentation writes it, `"*"`, which is not a Python expression: each request on a running job raises. -/
theorem star_violated (ev : Eval) (hev : ev ['*'] = none) (st : Settings) (hen : st.enabled = some "YES") (hforce : st.forceUsers = .str ['*']) (j : WJob) (queue : String)
    (hrun : j.state = "Running") (u : String) (hown : Owner j u) (new : List Char) (force delay : Bool) (now : Int) (row : Option Wtc) :
    requestT ev st (some (j, queue)) u new force delay now row = none := by
  unfold requestT
  rw [if_neg (by rw [hen]; simp)]
  dsimp only
  rw [if_neg (by
    rintro ⟨h1, h2, h3⟩
    rcases hown with h | h | h
    · exact h1 h.symm
    · exact h2 h
    · exact h3 h), if_neg (by simp [hrun])]
  have hm : getConf ev st.forceUsers queue none = none := by
    unfold getConf raw
    rw [hforce]
    dsimp only
    rw [if_neg (by decide), hev]
    rfl
  rw [hm]
  split
  · rename_i e _
    simp at e
  · rfl

/-- **C100** is violated by the display of the state: it raises for every job that was started. -/
theorem status_violated (ev : Eval) (st : Settings) (hen : st.enabled = some "YES") (k : Known) (hk : k.mold ≠ 0) (oardo user : Option String) (now : Int) (row : Option Wtc) (id : Int)
    (hid : id ≠ 0) : oarwalltime ev st oardo user (some k) now row ⟨some id, none, false, false, false⟩ = (none, row) := by
  unfold oarwalltime status
  simp [hid, hen, hk]

/-! ## Examples -/

def exEval : Eval := fun t => if t = defaultMax then some (some [("default", .int 7200)]) else none
def exSettings : Settings := ⟨some "YES", .str defaultMax, .flt 0, .str [], .str []⟩
def exKnown : Known := ⟨⟨"john", "Running", 1000, 3600, 0, false⟩, "default", 7⟩

/-- The hypotheses of the theorems hold: john asks one hour and a half more for his running job, then three hours, which is too much. -/
theorem command_example : Sane exEval exSettings "default" 3600 ∧ Says (txt "+1:30") ⟨1, 5400⟩ ∧
    oarwalltime exEval exSettings none (some "john") (some exKnown) 2000 none ⟨some 4, some (txt "+1:30"), false, false, false⟩ = (some 0, some ⟨5400, false, false, 0, 0, 0⟩) ∧
    oarwalltime exEval exSettings none (some "john") (some exKnown) 2000 none ⟨some 4, some (txt "+3"), false, false, false⟩ = (some 3, none) ∧
    oarwalltime exEval exSettings none (some "john") (some { exKnown with queue := "night" }) 2000 none ⟨some 4, some (txt "+1:30"), false, false, false⟩ = (none, none) := by
  refine ⟨⟨⟨7200, .int 7200, ⟨by decide, _, by rfl, Or.inl rfl⟩, Or.inl ⟨7200, rfl, by simp⟩⟩, ⟨0, .flt 0, rfl, rfl⟩, Or.inl rfl, Or.inl rfl⟩, ?_, ?_, ?_, ?_⟩
  · exact (text_spec _ _).mp (by decide +kernel)
  · decide +kernel
  · decide +kernel
  · decide +kernel

end Oar.WalltimeCli
