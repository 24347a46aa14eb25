import Verif.Tokens
import Verif.ApiProps

/-!
# C113 : a token gives the rights of the user who asked for it, for a limited time, and not after a revocation
-/

namespace Oar.Tokens

open Oar.Api

/-! ## Specification -/

/-- The token is accepted as a token of `u` in this world. -/
def Accepted (off : Int) (w : World) (t : Tok) (u : String) : Prop := t ∈ w.tokens ∧ request off w t = .accepted u

/-- A world that a history of the API can lead to. -/
def Reachable (off : Int) (minutes : Nat) (w : World) : Prop := ∃ now f l, w = run off minutes (start now f) l

/-- The table revokes the tokens of `u` issued before the date `d` (for all the users, or for `u`). -/
def Revokes (r : Revoked) (u : String) (d : Int) : Prop := r.glob = some (some d) ∨ r.find u = some (some d)

/-- What every history maintains about a token. -/
structure Sound (minutes : Nat) (w : World) (t : Tok) : Prop where
  user : t.user = t.owner
  named : t.owner ≠ ""
  born : t.born ≤ t.date
  past : t.date ≤ w.now
  life : t.exp = t.date + 60 * minutes

/-! ## Proofs -/

theorem request_facts {off : Int} {w : World} {t : Tok} {u : String} (h : request off w t = .accepted u) :
    t.user = u ∧ w.now ≤ t.exp ∧ ∀ d, Revokes w.loaded u d → d ≤ t.date := by
  obtain ⟨p, h1, h2, _, h4⟩ := accepted_not_revoked off _ _ _ h
  unfold tokenData at h1
  by_cases he : t.exp < w.now
  · rw [if_pos he] at h1; simp at h1
  · rw [if_neg he] at h1
    cases h1
    simp only [Option.some.injEq] at h2
    refine ⟨h2, by omega, fun d hd => ?_⟩
    obtain ⟨x, hx, hn⟩ := h4 (by
      rcases hd with hd | hd
      · exact Or.inl (by rw [hd]; simp)
      · exact Or.inr (by rw [hd]; simp))
    simp only [Option.some.injEq] at hx
    subst hx
    rcases hd with hd | hd
    · exact hn.1 d hd
    · exact hn.2 d hd

theorem step_now (off : Int) (minutes : Nat) (w : World) (a : Act) : w.now ≤ (step off minutes w a).now := by
  cases a with
  | tick d => simp only [step]; omega
  | deliver u => unfold step; dsimp only; split <;> exact Int.le_refl _
  | renew t =>
    unfold step
    dsimp only
    split
    · split <;> exact Int.le_refl _
    · exact Int.le_refl _
  | write f => exact Int.le_refl _
  | restart => exact Int.le_refl _

/-- The tokens after a step: those of before, or a new one. -/
theorem step_tokens (off : Int) (minutes : Nat) (w : World) (a : Act) (t : Tok) (ht : t ∈ (step off minutes w a).tokens) :
    t ∈ w.tokens ∨ (∃ u, u ≠ "" ∧ t = create minutes u u w.now w.now ∧ (step off minutes w a).now = w.now) ∨
    ∃ s u, Accepted off w s u ∧ t = create minutes s.user s.owner s.born w.now ∧ (step off minutes w a).now = w.now := by
  cases a with
  | tick d => exact Or.inl ht
  | deliver u =>
    unfold step at ht ⊢
    dsimp only at ht ⊢
    by_cases hu : u = ""
    · rw [if_pos hu] at ht; exact Or.inl ht
    · rw [if_neg hu] at ht ⊢
      rcases List.mem_cons.1 ht with e | e
      · exact Or.inr (Or.inl ⟨u, hu, e, rfl⟩)
      · exact Or.inl e
  | renew s =>
    unfold step at ht ⊢
    dsimp only at ht ⊢
    by_cases hs : s ∈ w.tokens
    · rw [if_pos hs] at ht ⊢
      cases hr : request off w s with
      | accepted u =>
        rw [hr] at ht
        rcases List.mem_cons.1 ht with e | e
        · exact Or.inr (Or.inr ⟨s, u, ⟨hs, hr⟩, e, rfl⟩)
        · exact Or.inl e
      | refused => rw [hr] at ht; exact Or.inl ht
      | crashed => rw [hr] at ht; exact Or.inl ht
    · rw [if_neg hs] at ht; exact Or.inl ht
  | write f => exact Or.inl ht
  | restart => exact Or.inl ht

theorem sound_step {off : Int} {minutes : Nat} {w : World} (h : ∀ t ∈ w.tokens, Sound minutes w t) (a : Act) :
    ∀ t ∈ (step off minutes w a).tokens, Sound minutes (step off minutes w a) t := by
  intro t ht
  have hn := step_now off minutes w a
  rcases step_tokens off minutes w a t ht with h1 | ⟨u, hu, rfl, e⟩ | ⟨s, u, hs, rfl, e⟩
  · obtain ⟨s1, s2, s3, s4, s5⟩ := h t h1
    exact ⟨s1, s2, s3, by omega, s5⟩
  · exact ⟨rfl, hu, Int.le_refl _, hn, rfl⟩
  · obtain ⟨s1, s2, s3, s4, s5⟩ := h s hs.1
    refine ⟨s1, s2, ?_, hn, rfl⟩
    show s.born ≤ w.now
    omega

theorem sound_run {off : Int} {minutes : Nat} : ∀ (l : List Act) {w : World}, (∀ t ∈ w.tokens, Sound minutes w t) →
    ∀ t ∈ (run off minutes w l).tokens, Sound minutes (run off minutes w l) t
  | [], _, h => h
  | a :: l, _, h => sound_run l (sound_step h a)

theorem reachable_sound {off : Int} {minutes : Nat} {w : World} (h : Reachable off minutes w) : ∀ t ∈ w.tokens, Sound minutes w t := by
  obtain ⟨now, f, l, rfl⟩ := h
  exact sound_run l (by simp [start])

/-- **C113.** Whatever happened before, a request accepted as one of `u` bears a token got by renewals from a token that `u` asked for, issued
in the past and at most `API_ACCESS_TOKEN_EXPIRE_MINUTES` ago, not before any revocation known to the API. -/
theorem accepted_sound (off : Int) (minutes : Nat) (w : World) (h : Reachable off minutes w) (t : Tok) (u : String)
    (ha : Accepted off w t u) :
    t.owner = u ∧ t.born ≤ t.date ∧ t.date ≤ w.now ∧ w.now ≤ t.date + 60 * minutes ∧ ∀ d, Revokes w.loaded u d → d ≤ t.date := by
  obtain ⟨s1, _, s3, s4, s5⟩ := reachable_sound h t ha.1
  obtain ⟨r1, r2, r3⟩ := request_facts ha.2
  exact ⟨by rw [← s1, r1], s3, s4, by omega, r3⟩

/-- **C113.** Nobody is refused without a reason: with well formed revocation dates, a token that is not expired and not revoked is accepted,
and the others are refused, without any failure. -/
theorem accepted_complete (off : Int) (minutes : Nat) (w : World) (h : Reachable off minutes w) (t : Tok) (ht : t ∈ w.tokens)
    (hg : w.loaded.glob ≠ some none) (hu : ∀ u, w.loaded.find u ≠ some none) :
    (Accepted off w t t.owner ↔ w.now ≤ t.date + 60 * minutes ∧ ∀ d, Revokes w.loaded t.owner d → d ≤ t.date) ∧
    request off w t ≠ .crashed ∧ ∀ u, Accepted off w t u → u = t.owner := by
  obtain ⟨s1, s2, s3, s4, s5⟩ := reachable_sound h t ht
  obtain ⟨a1, a2⟩ := auth_exact_partial off ⟨some t.user, some t.date⟩ w.loaded t.date rfl hg hu
  refine ⟨⟨fun ha => ?_, fun ⟨h1, h2⟩ => ⟨ht, ?_⟩⟩, ?_, fun u hu => ?_⟩
  · obtain ⟨_, _, _, r4, r5⟩ := accepted_sound off minutes w h t _ ha
    exact ⟨r4, r5⟩
  · unfold request tokenData
    rw [if_neg (by omega)]
    refine (a1 t.owner).2 ⟨by rw [s1], s2, fun g hg => h2 g (Or.inl hg), fun g hg => h2 g (Or.inr hg)⟩
  · unfold request tokenData
    split
    · simp [needAuthentication]
    · exact a2
  · exact (accepted_sound off minutes w h t u hu).1.symm

/-- The tokens of `u` issued since `d` come from tokens that `u` asked for since `d`. -/
def Fresh (u : String) (d : Int) (w : World) : Prop := ∀ t ∈ w.tokens, t.owner = u → d ≤ t.date → d ≤ t.born

theorem fresh_step {off : Int} {minutes : Nat} {w : World} {u : String} {d : Int} (hf : Fresh u d w)
    (hs : ∀ t ∈ w.tokens, Sound minutes w t)
    (hr : ∀ t, Accepted off w t u → d ≤ t.date) (a : Act) : Fresh u d (step off minutes w a) := by
  intro t ht ho hd
  rcases step_tokens off minutes w a t ht with h1 | ⟨v, hv, rfl, _⟩ | ⟨s, v, hsa, rfl, _⟩
  · exact hf t h1 ho hd
  · exact hd
  · have e : s.owner = u := ho
    have ev : v = u := by
      rw [← e, ← (hs s hsa.1).user]
      exact (request_facts hsa.2).1.symm
    subst ev
    exact hf s hsa.1 e (hr s hsa)

theorem loaded_step {off : Int} {minutes : Nat} {w : World} {a : Act} (h : a ≠ .restart) : (step off minutes w a).loaded = w.loaded := by
  cases a with
  | tick d => rfl
  | deliver u => unfold step; dsimp only; split <;> rfl
  | renew t =>
    unfold step
    dsimp only
    split
    · split <;> rfl
    · rfl
  | write f => rfl
  | restart => exact absurd rfl h

theorem revoked_run {off : Int} {minutes : Nat} {u : String} {d : Int} : ∀ (l : List Act) (w : World), (∀ t ∈ w.tokens, Sound minutes w t) →
    Fresh u d w → Revokes w.loaded u d → (∀ a ∈ l, a ≠ .restart) →
    Fresh u d (run off minutes w l) ∧ Revokes (run off minutes w l).loaded u d
  | [], _, _, hf, hr, _ => ⟨hf, hr⟩
  | a :: l, w, hs, hf, hr, hl => by
    refine revoked_run l (step off minutes w a) (sound_step hs a) (fresh_step hf hs (fun t ht => (request_facts ht.2).2.2 d hr) a) ?_
      (fun b hb => hl b (by simp [hb]))
    rw [loaded_step (hl a (by simp))]
    exact hr

/-- **C113.** A revocation of the tokens of `u` (or of everybody) up to a date that is not reached yet when the API reads it ends all the
tokens of `u` and all those got from them by renewal: as long as the API is not started again, what is accepted as a request of `u` comes from
a token that `u` asked for at this date or later. -/
theorem revocation_ends_chains (off : Int) (minutes : Nat) (w : World) (h : Reachable off minutes w) (u : String) (d : Int)
    (hr : Revokes w.loaded u d) (hd : w.now < d) (l : List Act) (hl : ∀ a ∈ l, a ≠ .restart) (t : Tok)
    (ha : Accepted off (run off minutes w l) t u) : d ≤ t.born := by
  have hs := reachable_sound h
  have hf : Fresh u d w := fun t ht _ hdt => by have := (hs t ht).past; omega
  obtain ⟨f1, f2⟩ := revoked_run (off := off) (minutes := minutes) l w hs hf hr hl
  obtain ⟨r1, _, r3⟩ := request_facts ha.2
  have := sound_run (off := off) l hs t ha.1
  exact f1 t ha.1 (by rw [← this.user, r1]) (r3 d f2)

theorem old_run {off : Int} {minutes : Nat} {u : String} {d : Int} : ∀ (l : List Act) (w : World), (∀ t ∈ w.tokens, Sound minutes w t) →
    Fresh u d w → d + 60 * minutes < w.now → Fresh u d (run off minutes w l) ∧ d + 60 * minutes < (run off minutes w l).now
  | [], _, _, hf, hn => ⟨hf, hn⟩
  | a :: l, w, hs, hf, hn => by
    have h1 := step_now off minutes w a
    refine old_run l (step off minutes w a) (sound_step hs a) (fresh_step hf hs (fun t ht => ?_) a) (by omega)
    have := (request_facts ht.2).2.1
    have := (hs t ht.1).life
    omega

/-- **C113.** The entry of a revocation can be removed from the file when `API_ACCESS_TOKEN_EXPIRE_MINUTES` have gone by since its date: whatever
the file and the restarts after that, the tokens it has ended stay refused, with all those got from them. -/
theorem revocation_removable (off : Int) (minutes : Nat) (w : World) (h : Reachable off minutes w) (u : String) (d : Int)
    (hr : Revokes w.loaded u d) (hd : w.now < d) (l1 : List Act) (hl : ∀ a ∈ l1, a ≠ .restart)
    (hn : d + 60 * minutes < (run off minutes w l1).now) (l2 : List Act) (t : Tok)
    (ha : Accepted off (run off minutes (run off minutes w l1) l2) t u) : d ≤ t.born := by
  have hs := reachable_sound h
  have hf : Fresh u d w := fun t ht _ hdt => by have := (hs t ht).past; omega
  obtain ⟨f1, _⟩ := revoked_run (off := off) (minutes := minutes) l1 w hs hf hr hl
  obtain ⟨g1, g2⟩ := old_run (off := off) l2 _ (sound_run l1 hs) f1 hn
  obtain ⟨r1, r2, _⟩ := request_facts ha.2
  have := sound_run (off := off) l2 (sound_run l1 hs) t ha.1
  refine g1 t ha.1 (by rw [← this.user, r1]) ?_
  have := this.life
  omega

/-! ## What does not hold -/

/-- **C113, violated.** A token never ends by itself: renewed in time, a token asked for once is accepted after any time, for any duration of
the tokens. -/
theorem renewed_forever_violated (off : Int) (minutes : Nat) (hm : 0 < minutes) (T : Nat) :
    ∃ w t, Reachable off minutes w ∧ Accepted off w t "ann" ∧ t.born = 0 ∧ (T : Int) ≤ w.now := by
  have key : ∀ n : Nat, ∃ l, ∀ w, w = run off minutes (start 0 none) l → w.loaded = ⟨none, []⟩ ∧ w.now = n ∧
      create minutes "ann" "ann" 0 n ∈ w.tokens := by
    intro n
    induction n with
    | zero => exact ⟨[.deliver "ann"], by rintro w rfl; exact ⟨rfl, rfl, by simp [run, step, start]⟩⟩
    | succ n ih =>
      obtain ⟨l, hl⟩ := ih
      refine ⟨l ++ [.tick 1, .renew (create minutes "ann" "ann" 0 n)], ?_⟩
      rintro w rfl
      obtain ⟨h1, h2, h3⟩ := hl _ rfl
      unfold run at h1 h2 h3 ⊢
      rw [List.foldl_append]
      generalize List.foldl (step off minutes) (start 0 none) l = w at h1 h2 h3 ⊢
      obtain ⟨wn, wf, wl, wt⟩ := w
      dsimp only at h1 h2 h3
      subst h1 h2
      have hreq : request off ⟨(n : Int) + (1 : Nat), wf, ⟨none, []⟩, wt⟩ (create minutes "ann" "ann" 0 n) = .accepted "ann" := by
        unfold request tokenData create
        rw [if_neg (by dsimp only; omega)]
        rfl
      simp only [List.foldl_cons, List.foldl_nil, step]
      rw [if_pos h3, hreq]
      refine ⟨rfl, by dsimp only; omega, ?_⟩
      have e : ((n : Int) + (1 : Nat)) = ((n + 1 : Nat) : Int) := by omega
      rw [← e]
      exact List.mem_cons_self ..
  obtain ⟨l, hl⟩ := key T
  obtain ⟨h1, h2, h3⟩ := hl _ rfl
  refine ⟨_, create minutes "ann" "ann" 0 T, ⟨0, none, l, rfl⟩, ⟨h3, ?_⟩, rfl, by omega⟩
  unfold request tokenData
  rw [h1, h2, if_neg (by unfold create; dsimp only; omega)]
  rfl

/-- **C113, violated.** A revocation dated of the moment it is written does not end the tokens: between this date and the start of the API that
reads the file, a token that was stolen is renewed, and the new one is accepted although all the tokens of the user issued before
the revocation are revoked. -/
theorem late_revocation_violated :
    ∃ l t, Revokes (run 0 60 (start 0 none) l).loaded "ann" 100 ∧ Accepted 0 (run 0 60 (start 0 none) l) t "ann" ∧ t.born = 0 := by
  refine ⟨[.deliver "ann", .tick 100, .write (some ⟨none, [("ann", some 100)]⟩), .tick 10, .renew ⟨"ann", 0, 3600, "ann", 0⟩, .restart],
    ⟨"ann", 110, 3710, "ann", 0⟩, Or.inr (by decide), ⟨by decide, by decide⟩, rfl⟩

/-- **C113, violated.** The tokens issued in the very second of the revocation are not revoked. -/
theorem same_second_violated :
    ∃ l t, Revokes (run 0 60 (start 0 none) l).loaded "ann" 100 ∧ Accepted 0 (run 0 60 (start 0 none) l) t "ann" ∧ t.born = 100 :=
  ⟨[.tick 100, .deliver "ann", .write (some ⟨none, [("ann", some 100)]⟩), .restart, .tick 50], ⟨"ann", 100, 3700, "ann", 100⟩,
    Or.inr (by decide), ⟨by decide, by decide⟩, rfl⟩

/-- **C113, violated.** When the file of the revocations is not valid, the API starts with no revocation at all: a token that was refused is
accepted again. -/
theorem broken_file_violated :
    ∃ l t, (∀ u, ¬ Accepted 0 (run 0 60 (start 0 none) l) t u) ∧
      Accepted 0 (run 0 60 (start 0 none) (l ++ [.write none, .restart])) t "ann" := by
  refine ⟨[.deliver "ann", .write (some ⟨some (some 100), []⟩), .restart], ⟨"ann", 0, 3600, "ann", 0⟩, fun u h => ?_, ⟨by decide, by decide⟩⟩
  have h2 : request 0 (run 0 60 (start 0 none) [.deliver "ann", .write (some ⟨some (some 100), []⟩), .restart]) ⟨"ann", 0, 3600, "ann", 0⟩ = .refused := by
    decide
  have h3 := h.2
  rw [h2] at h3
  simp at h3

/-- **C113, violated.** `whoami` names the user of a token that is refused everywhere else. -/
theorem whoami_violated :
    ∃ l t, request 0 (run 0 60 (start 0 none) l) t = .refused ∧ whoami (run 0 60 (start 0 none) l) t = "ann" :=
  ⟨[.deliver "ann", .write (some ⟨some (some 100), []⟩), .restart], ⟨"ann", 0, 3600, "ann", 0⟩, by decide, by decide⟩

/-! ## A case that meets the hypotheses -/

/-- Ann asks for a token, renews it; a revocation up to the date 500 is read at the date 300; Bob is not concerned; from 500 on Ann can ask for a
new token, and renew it. -/
theorem tokens_example :
    let l1 := [.deliver "ann", .deliver "bob", .tick 200, .renew ⟨"ann", 0, 3600, "ann", 0⟩, .tick 100, .write (some ⟨none, [("ann", some 500)]⟩), .restart]
    let l2 := [.renew ⟨"ann", 200, 3800, "ann", 0⟩, .tick 300, .deliver "ann", .tick 10, .renew ⟨"ann", 600, 4200, "ann", 600⟩]
    let w1 := run 0 60 (start 0 none) l1
    let w2 := run 0 60 w1 l2
    Reachable 0 60 w1 ∧ Revokes w1.loaded "ann" 500 ∧ w1.now < 500 ∧ (∀ a ∈ l2, a ≠ .restart) ∧
    Accepted 0 w2 ⟨"ann", 610, 4210, "ann", 600⟩ "ann" ∧ Accepted 0 w2 ⟨"bob", 0, 3600, "bob", 0⟩ "bob" ∧
    request 0 w1 ⟨"ann", 200, 3800, "ann", 0⟩ = .refused := by
  refine ⟨⟨0, none, _, rfl⟩, Or.inr (by decide), by decide, by decide, ⟨by decide, by decide⟩, ⟨by decide, by decide⟩, by decide⟩

end Oar.Tokens
