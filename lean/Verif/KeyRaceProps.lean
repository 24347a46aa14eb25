import Verif.KeyRace

/-!
# C101: the keys of simultaneous submissions are not mixed
-/

namespace Oar.KeyRace

open Oar.Tools Oar.Keys

/-! ## Specification -/

/-- The beginning: no submission has started, no temporary file. -/
def Fresh (st : St) : Prop := (∀ p, st.files p = (none, none)) ∧ ∀ i, (st.subs i).pc = .start

/-- No process treats two submissions at a time, and no process dies in the middle of one. -/
def Serial (w : World) : St → List Ev → Prop
  | _, [] => True
  | st, .step i :: es => (∀ j, j ≠ i → (st.subs j).pid = (st.subs i).pid → (st.subs j).inside = false) ∧ Serial w (next w st (.step i)) es
  | st, .crash p :: es => (∀ j, (st.subs j).pid = p → (st.subs j).inside = false) ∧ Serial w (next w st (.crash p)) es

/-- What a submission alone obtains (C86). -/
def alone (w : World) (s : Sub) : KeyRes := (jobKey w ⟨"", none, []⟩ s.num { use := true, inl := s.inl }).1

/-- The pair of keys of a submission: the one given, or the one generated for it. -/
def pair (w : World) (s : Sub) : Option (List Char × List Char) :=
  if s.inl ≠ [] then (w.pubOf s.inl).map (fun p => (s.inl, p)) else w.gen s.num

theorem alone_spec (w : World) (s : Sub) : alone w s = match pair w s with
    | none => .error (-14)
    | some p => lastChecks p.1 p.2 := by
  unfold alone jobKey pair
  by_cases h : s.inl = []
  · simp only [h, ne_eq, not_true_eq_false, if_false]
    cases w.gen s.num <;> simp
  · simp only [h, ne_eq, not_false_eq_true, if_true]
    cases hp : w.pubOf s.inl <;> simp [h]

/-! ## Invariant -/

/-- What is known of a submission and of the files of its process. -/
def Good (w : World) (f : Option (List Char) × Option (List Char)) (s : Sub) : Prop :=
  match s.pc with
  | .extract => s.inl ≠ [] ∧ f = (some s.inl, none)
  | .readPriv => ∃ p, pair w s = some p ∧ f = (some p.1, some p.2)
  | .readPub => ∃ p, pair w s = some p ∧ f = (some p.1, some p.2) ∧ s.priv = p.1
  | .rmPriv => ∃ p, pair w s = some p ∧ f = (some p.1, some p.2) ∧ s.priv = p.1 ∧ s.pub = p.2
  | .rmPub => ∃ p, pair w s = some p ∧ f = (none, some p.2) ∧ s.priv = p.1 ∧ s.pub = p.2
  | .done r => r = alone w s
  | .raised => False
  | _ => True

def Inv (w : World) (st : St) : Prop :=
  (∀ i, Good w (st.files (st.subs i).pid) (st.subs i)) ∧ ∀ p, (∀ i, (st.subs i).pid = p → (st.subs i).inside = false) → st.files p = (none, none)

theorem act_pid (w : World) (f) (s : Sub) : (act w f s).1.pid = s.pid ∧ (act w f s).1.num = s.num ∧ (act w f s).1.inl = s.inl := by
  unfold act
  repeat' split
  all_goals exact ⟨rfl, rfl, rfl⟩

theorem good_outside {w : World} {f f' : Option (List Char) × Option (List Char)} {s : Sub} (h : s.inside = false) (hg : Good w f s) : Good w f' s := by
  unfold Sub.inside at h
  unfold Good at hg ⊢
  cases hp : s.pc <;> rw [hp] at h hg <;> simp_all

theorem act_good {w : World} {f : Option (List Char) × Option (List Char)} {s : Sub} (h : Good w f s) (hf : s.inside = false → f = (none, none)) :
    Good w (act w f s).2 (act w f s).1 ∧ ((act w f s).1.inside = false → (act w f s).2 = (none, none)) := by
  obtain ⟨pid, num, inl, pc, priv, pub⟩ := s
  cases pc with
  | start =>
    obtain rfl := hf rfl
    unfold act
    dsimp only
    by_cases hi : inl ≠ []
    · rw [if_pos hi]; exact ⟨⟨hi, rfl⟩, by simp [Sub.inside]⟩
    · rw [if_neg hi, if_neg (by simp)]
      cases hg : w.gen num with
      | none =>
        refine ⟨?_, fun _ => rfl⟩
        show KeyRes.error (-14) = alone w _
        rw [alone_spec]; unfold pair; rw [if_neg hi, hg]
      | some p => exact ⟨⟨p, by unfold pair; rw [if_neg hi, hg], rfl⟩, by simp [Sub.inside]⟩
  | extract =>
    obtain ⟨hi, rfl⟩ := h
    unfold act
    dsimp only
    cases hp : w.pubOf inl with
    | none =>
      refine ⟨?_, fun _ => rfl⟩
      show KeyRes.error (-14) = alone w _
      rw [alone_spec]; unfold pair; rw [if_pos hi, hp]; rfl
    | some p => exact ⟨⟨(inl, p), by unfold pair; rw [if_pos hi, hp]; rfl, rfl⟩, by simp [Sub.inside]⟩
  | readPriv =>
    obtain ⟨p, hp, rfl⟩ := h
    exact ⟨⟨p, hp, rfl, rfl⟩, by simp [act, Sub.inside]⟩
  | readPub =>
    obtain ⟨p, hp, rfl, h1⟩ := h
    exact ⟨⟨p, hp, rfl, h1, rfl⟩, by simp [act, Sub.inside]⟩
  | rmPriv =>
    obtain ⟨p, hp, rfl, h1, h2⟩ := h
    exact ⟨⟨p, hp, rfl, h1, h2⟩, by simp [act, Sub.inside]⟩
  | rmPub =>
    obtain ⟨p, hp, rfl, h1, h2⟩ := h
    refine ⟨?_, fun _ => rfl⟩
    show lastChecks priv pub = alone w { pid := pid, num := num, inl := inl, pc := Pc.done (lastChecks priv pub), priv := priv, pub := pub }
    rw [alone_spec]
    have : pair w { pid := pid, num := num, inl := inl, pc := Pc.done (lastChecks priv pub), priv := priv, pub := pub } = some p := hp
    rw [this]
    dsimp only at h1 h2 ⊢
    rw [h1, h2]
  | done r => exact ⟨h, fun _ => hf rfl⟩
  | raised => exact ⟨h, fun _ => hf rfl⟩
  | dead => exact ⟨h, fun _ => hf rfl⟩

theorem step_inv {w : World} {st : St} {i : Nat} (h : Inv w st) (ha : ∀ j, j ≠ i → (st.subs j).pid = (st.subs i).pid → (st.subs j).inside = false) :
    Inv w (next w st (.step i)) := by
  obtain ⟨hg, hc⟩ := h
  have hf : (st.subs i).inside = false → st.files (st.subs i).pid = (none, none) := by
    intro hi
    apply hc
    intro j hj
    by_cases e : j = i
    · rw [e]; exact hi
    · exact ha j e hj
  obtain ⟨g1, g2⟩ := act_good (hg i) hf
  obtain ⟨e1, _, _⟩ := act_pid w (st.files (st.subs i).pid) (st.subs i)
  constructor
  · intro j
    unfold next
    dsimp only
    by_cases e : j = i
    · subst e
      rw [Function.update_self, e1, Function.update_self]
      exact g1
    · rw [Function.update_of_ne e]
      by_cases ep : (st.subs j).pid = (st.subs i).pid
      · exact good_outside (ha j e ep) (hg j)
      · rw [Function.update_of_ne ep]; exact hg j
  · intro p hp
    unfold next at hp ⊢
    dsimp only at hp ⊢
    by_cases ep : p = (st.subs i).pid
    · subst ep
      rw [Function.update_self]
      apply g2
      have := hp i (by rw [Function.update_self]; exact e1)
      rwa [Function.update_self] at this
    · rw [Function.update_of_ne ep]
      apply hc
      intro j hj
      have hne : j ≠ i := by rintro rfl; exact ep hj.symm
      have := hp j (by rw [Function.update_of_ne hne]; exact hj)
      rwa [Function.update_of_ne hne] at this

theorem crash_same {w : World} {st : St} {p : Nat} (h : ∀ j, (st.subs j).pid = p → (st.subs j).inside = false) : next w st (.crash p) = st := by
  unfold next
  dsimp only
  obtain ⟨f, s⟩ := st
  congr 1
  funext i
  by_cases e : (s i).pid = p ∧ (s i).inside = true
  · have := h i e.1
    dsimp only at this
    rw [this] at e
    simp at e
  · rw [if_neg e]

theorem run_inv {w : World} : ∀ (es : List Ev) (st : St), Inv w st → Serial w st es → Inv w (run w st es)
  | [], _, h, _ => h
  | .step i :: es, st, h, hs => run_inv es (next w st (.step i)) (step_inv h hs.1) hs.2
  | .crash p :: es, st, h, hs => by
    have e : next w st (.crash p) = st := crash_same hs.1
    have h2 := hs.2
    rw [e] at h2
    have := run_inv es st h h2
    unfold run at this ⊢
    rw [List.foldl_cons, e]
    exact this

theorem fresh_inv {w : World} {st : St} (h : Fresh st) : Inv w st := by
  refine ⟨fun i => ?_, fun p _ => h.1 p⟩
  unfold Good
  rw [h.2 i]
  trivial

/-- **C101** (the part proved). Whatever the number of submissions, of processes and the order of their steps: when no process treats two submissions at a time nor dies in the middle of
one, each submission obtains what it obtains alone, no submission raises, and no key is left in the temporary files. -/
theorem keys_apart_partial (w : World) (st : St) (es : List Ev) (hf : Fresh st) (hs : Serial w st es) :
    (∀ i r, ((run w st es).subs i).pc = .done r → r = alone w ((run w st es).subs i)) ∧ (∀ i, ((run w st es).subs i).pc ≠ .raised) ∧
    ∀ p, (∀ i, ((run w st es).subs i).pid = p → ((run w st es).subs i).inside = false) → (run w st es).files p = (none, none) := by
  obtain ⟨hg, hc⟩ := run_inv es st (fresh_inv hf) hs
  refine ⟨fun i r hr => ?_, fun i hr => ?_, hc⟩
  · have := hg i
    unfold Good at this
    rw [hr] at this
    exact this
  · have := hg i
    unfold Good at this
    rw [hr] at this
    exact this

/-- The request of a submission never changes. -/
theorem request_kept (w : World) (st : St) (es : List Ev) (i : Nat) :
    ((run w st es).subs i).pid = (st.subs i).pid ∧ ((run w st es).subs i).num = (st.subs i).num ∧ ((run w st es).subs i).inl = (st.subs i).inl := by
  induction es generalizing st with
  | nil => exact ⟨rfl, rfl, rfl⟩
  | cons e es ih =>
    have hstep : ((next w st e).subs i).pid = (st.subs i).pid ∧ ((next w st e).subs i).num = (st.subs i).num ∧ ((next w st e).subs i).inl = (st.subs i).inl := by
      cases e with
      | step j =>
        unfold next
        dsimp only
        by_cases e : i = j
        · subst e; rw [Function.update_self]; exact act_pid w _ _
        · rw [Function.update_of_ne e]; exact ⟨rfl, rfl, rfl⟩
      | crash p =>
        unfold next
        dsimp only
        split <;> exact ⟨rfl, rfl, rfl⟩
    obtain ⟨a, b, c⟩ := ih (next w st e)
    unfold run at a b c ⊢
    rw [List.foldl_cons]
    exact ⟨a.trans hstep.1, b.trans hstep.2.1, c.trans hstep.2.2⟩

/-! ## Where the property fails -/

/-- Two requests with a key given inline, in one process. -/
def two (a b : List Char) : St := ⟨fun _ => (none, none), fun i => if i = 0 then ⟨1, 0, a, .start, [], []⟩ else if i = 1 then ⟨1, 1, b, .start, [], []⟩ else ⟨2, i, [], .start, [], []⟩⟩

/-- The first one writes its key, then the second one writes its own; the first one then goes on until its end, and the second one continues. -/
def mixed : List Ev := [.step 0, .step 1, .step 0, .step 0, .step 0, .step 0, .step 0, .step 1]

/-- **C101** is violated by two simultaneous requests to the API server: whenever the key written second is not the shorter one, the first user gets a job with the private key of the second one, whose
request fails. -/
theorem mixed_violated (w : World) (a b p : List Char) (ha : a ≠ []) (hl : a.length ≤ b.length) (hp : w.pubOf b = some p) :
    Fresh (two a b) ∧ ((run w (two a b) mixed).subs 0).pc = .done (lastChecks b p) ∧ ((run w (two a b) mixed).subs 1).pc = .done (.error (-14)) := by
  have hb : b ≠ [] := by
    intro e
    rw [e] at hl
    exact ha (List.length_eq_zero_iff.mp (by simpa using hl))
  have hd : a.drop b.length = [] := List.drop_eq_nil_of_le hl
  refine ⟨⟨fun _ => rfl, fun i => ?_⟩, ?_, ?_⟩
  · unfold two
    dsimp only
    repeat' split
    all_goals rfl
  · simp [run, mixed, next, two, act, ha, hb, overlay, hd, hp, Function.update]
  · simp [run, mixed, next, two, act, ha, hb, overlay, hd, hp, Function.update]

/-- A process is interrupted after the writing of a key; later another process gets the same number and gives a shorter key. -/
def again : List Ev := [.step 0, .crash 1, .step 1, .step 1, .step 1, .step 1, .step 1, .step 1]

/-- **C101** is violated after a crash: the key of the next submission with the same process number is followed by the end of the key that was left. -/
theorem leftover_violated (w : World) (a b p : List Char) (ha : a ≠ []) (hb : b ≠ []) (hp : w.pubOf (b ++ a.drop b.length) = some p) :
    Fresh (two a b) ∧ ((run w (two a b) again).subs 1).pc = .done (lastChecks (b ++ a.drop b.length) p) := by
  refine ⟨⟨fun _ => rfl, fun i => ?_⟩, ?_⟩
  · unfold two
    dsimp only
    repeat' split
    all_goals rfl
  · simp [run, again, next, two, act, ha, hb, overlay, hp, Function.update, Sub.inside]

/-- **C101** is violated after a crash for a key to generate: the submission is refused. -/
theorem generate_violated (w : World) (a : List Char) (ha : a ≠ []) : Fresh (two a []) ∧ ((run w (two a []) [.step 0, .crash 1, .step 1]).subs 1).pc = .done (.error (-14)) := by
  refine ⟨⟨fun _ => rfl, fun i => ?_⟩, ?_⟩
  · unfold two
    dsimp only
    repeat' split
    all_goals rfl
  · simp [run, next, two, act, ha, overlay, Function.update, Sub.inside]

/-! ## Example -/

def exWorld : World := ⟨fun _ _ => none, fun k => some (txt "ssh-rsa " ++ k), fun i => some (txt "P" ++ digits i, txt "ssh-rsa Q")⟩

/-- Two processes whose steps are interleaved, and two submissions of the first one in turn: the hypotheses hold. -/
def exSched : List Ev := [.step 0, .step 2, .step 0, .step 2, .step 0, .step 0, .step 2, .step 0, .step 0, .step 1, .step 2, .step 1, .step 2, .step 1, .step 1, .step 1, .step 1]

/-- The same condition, over the first submissions. -/
def serialB (w : World) (n : Nat) : St → List Ev → Bool
  | _, [] => true
  | st, .step i :: es => decide (i < n) && (List.range n).all (fun j => j == i || (st.subs j).pid != (st.subs i).pid || !(st.subs j).inside) && serialB w n (next w st (.step i)) es
  | _, .crash _ :: _ => false

theorem serialB_sound {w : World} {n : Nat} : ∀ (es : List Ev) (st : St), (∀ j, n ≤ j → (st.subs j).pc = .start) → serialB w n st es = true → Serial w st es
  | [], _, _, _ => trivial
  | .step i :: es, st, hn, h => by
    simp only [serialB, Bool.and_eq_true, decide_eq_true_eq, List.all_eq_true, List.mem_range, Bool.or_eq_true, beq_iff_eq, bne_iff_ne, Bool.not_eq_true'] at h
    obtain ⟨⟨h1, h2⟩, h3⟩ := h
    refine ⟨fun j hj hp => ?_, serialB_sound es _ (fun j hj => ?_) h3⟩
    · by_cases hjn : j < n
      · rcases h2 j hjn with (h | h) | h
        · exact absurd h hj
        · exact absurd hp h
        · exact h
      · have := hn j (by omega)
        unfold Sub.inside
        rw [this]
    · unfold next
      dsimp only
      rw [Function.update_of_ne (by omega)]
      exact hn j hj
  | .crash p :: es, st, _, h => by simp [serialB] at h

def exSt : St := ⟨fun _ => (none, none), fun i => ⟨if i ≤ 1 then 1 else 2, i, if i = 0 then txt "abc" else [], .start, [], []⟩⟩

theorem race_example : Fresh exSt ∧ Serial exWorld exSt exSched ∧ ((run exWorld exSt exSched).subs 0).pc = .done (.ok (txt "abc") (txt "ssh-rsa abc")) ∧
    ((run exWorld exSt exSched).subs 1).pc = .done (.ok (txt "P1") (txt "ssh-rsa Q")) ∧ ((run exWorld exSt exSched).subs 2).pc = .done (.ok (txt "P2") (txt "ssh-rsa Q")) :=
  ⟨⟨fun _ => rfl, fun _ => rfl⟩, serialB_sound (n := 3) _ _ (fun _ _ => rfl) (by decide +kernel), by decide +kernel, by decide +kernel, by decide +kernel⟩

end Oar.KeyRace
