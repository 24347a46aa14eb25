import Verif.QuotasLemmas

/-!
# C15, C16, C17 : quota counters, rules and checks
-/

namespace Oar.Quotas

/-! ## C16 : the counters count the jobs -/

/-- Record a list of jobs (successive calls of `Quotas.update`). -/
def record (jobTypes : List String) (rs : List Rec) (c : Counters) : Counters :=
  rs.foldl (fun c r => update jobTypes r.job r.nb r.dur c) c

/-- **C16.** After any sequence of jobs, the counter of any key is its previous value plus the sum of what the jobs of
the class designated by the key use. (`jobTypes` has no repetition: see `counted_twice_violated`.) -/
theorem counters_exact_partial (jobTypes : List String) (hn : jobTypes.Nodup) (rs : List Rec) (c : Counters)
    (hp : ∀ r ∈ rs, Proper r.job) (k : Key) :
    value (record jobTypes rs c) k =
      value c k + ((rs.filter (fun r => decide (InClass jobTypes r.job k))).map Rec.use).sum := by
  induction rs generalizing c with
  | nil => simp [record]
  | cons r rs ih =>
    have e : record jobTypes (r :: rs) c = record jobTypes rs (update jobTypes r.job r.nb r.dur c) := rfl
    rw [e, ih _ (fun r' h => hp r' (by simp [h])), value_update_exact (hp r (by simp)) hn]
    by_cases h : InClass jobTypes r.job k
    · rw [if_pos h, List.filter_cons_of_pos (by simpa using h), List.map_cons, List.sum_cons, add_assoc]; rfl
    · rw [if_neg h, List.filter_cons_of_neg (by simpa using h), add_zero]

/-- **C16.** The order in which the jobs are counted does not matter. -/
theorem counters_order (jobTypes : List String) (rs rs' : List Rec) (c : Counters) (h : rs.Perm rs') (k : Key) :
    value (record jobTypes rs c) k = value (record jobTypes rs' c) k := by
  have key : ∀ (rs : List Rec) (c : Counters), value (record jobTypes rs c) k =
      value c k + (rs.map (fun r => ((allKeys jobTypes r.job).count k) • r.use)).sum := by
    intro rs
    induction rs with
    | nil => intro c; simp [record]
    | cons r rs ih =>
      intro c
      have e : record jobTypes (r :: rs) c = record jobTypes rs (update jobTypes r.job r.nb r.dur c) := rfl
      rw [e, ih, value_update, List.map_cons, List.sum_cons, add_assoc]; rfl
  rw [key, key, (h.map _).sum_eq]

/-- **C16.** Combining the counters of two slots takes the maximum of the instantaneous quantities and the sum of the
resource-time. -/
theorem combine_max_max_sum (o c : Counters) (ho : Keyed o) (hc : NonNeg c) (k : Key) :
    (value (combine o c) k).res = max (value c k).res (value o k).res ∧
    (value (combine o c) k).jobs = max (value c k).jobs (value o k).jobs ∧
    (value (combine o c) k).time = (value c k).time + (value o k).time := by
  rw [value_combine_nonneg ho hc]; exact ⟨rfl, rfl, rfl⟩

/-- The dictionaries obtained by counting jobs have distinct keys and non-negative values. -/
theorem record_keyed (jobTypes : List String) (rs : List Rec) (h : ∀ r ∈ rs, 0 ≤ r.nb ∧ 0 ≤ r.dur) :
    Keyed (record jobTypes rs []) ∧ NonNeg (record jobTypes rs []) := by
  have key : ∀ (rs : List Rec) (c : Counters), (∀ r ∈ rs, 0 ≤ r.nb ∧ 0 ≤ r.dur) → Keyed c → NonNeg c →
      Keyed (record jobTypes rs c) ∧ NonNeg (record jobTypes rs c) := by
    intro rs
    induction rs with
    | nil => intro c _ h1 h2; exact ⟨h1, h2⟩
    | cons r rs ih =>
      intro c h h1 h2
      exact ih _ (fun r' hr => h r' (by simp [hr])) (keyed_update _ _ _ _ _ h1)
        (nonneg_update _ _ _ _ _ h2 (h r (by simp)).1 (h r (by simp)).2)
  exact key rs [] h (by simp [Keyed]) nonneg_nil

/-- The jobs of the examples. -/
def john : QJob := ⟨"default", "prj", ["besteffort"], "john"⟩
def mary : QJob := ⟨"default", "prj", [], "mary"⟩

example : Proper john ∧ ["*", "besteffort"].Nodup ∧ InClass ["*", "besteffort"] john ⟨"*", "*", "besteffort", "john"⟩ ∧
    ¬ InClass ["*", "besteffort"] mary ⟨"*", "*", "besteffort", "*"⟩ := by
  refine ⟨⟨?_, ?_, ?_⟩, ?_, ?_, ?_⟩ <;> decide
example : value (record ["*", "besteffort"] [⟨john, 3, 10⟩, ⟨mary, 2, 5⟩] []) ⟨"*", "prj", "*", "*"⟩ = ⟨5, 2, 40⟩ := by
  decide

/-- **C16, violated.** `Quotas.enable` extends the class attribute `job_types` (oar/kao/quotas.py:834): after the rules
have been loaded twice in a process each job of a listed type is counted twice. -/
theorem counted_twice_violated :
    value (record (["*"] ++ ["besteffort"] ++ ["besteffort"]) [⟨john, 3, 10⟩] []) ⟨"*", "*", "besteffort", "*"⟩ =
      ⟨6, 2, 60⟩ := by decide

/-! ## C17 : the rule that applies -/

theorem getItem_spec {d : List String} {v l : String} (h : getItem d v = some l) :
    l ∈ d ∧ ∃ n, rank v l = some n ∧ ∀ l' ∈ d, ∀ n', rank v l' = some n' → n ≤ n' ∧ (n = n' → l = l') := by
  unfold getItem at h
  by_cases h1 : v ∈ d
  · rw [if_pos h1] at h
    obtain rfl := Option.some.inj h
    refine ⟨h1, 0, by simp [rank], fun l' _ n' hn => ⟨by omega, ?_⟩⟩
    intro e; subst e
    unfold rank at hn
    split at hn
    · rename_i e; exact e.symm
    · split at hn
      · simp at hn
      · split at hn <;> simp at hn
  · rw [if_neg h1] at h
    by_cases h2 : "/" ∈ d
    · rw [if_pos h2] at h
      obtain rfl := Option.some.inj h
      have hv : "/" ≠ v := fun e => h1 (e ▸ h2)
      refine ⟨h2, 1, by simp [rank, hv], ?_⟩
      intro l' hl' n' hn
      unfold rank at hn
      split at hn
      · rename_i e; exact absurd (e ▸ hl') h1
      · split at hn
        · rename_i e; simp only [Option.some.injEq] at hn; exact ⟨by omega, fun _ => e.symm⟩
        · split at hn
          · simp only [Option.some.injEq] at hn; exact ⟨by omega, fun e => by omega⟩
          · simp at hn
    · rw [if_neg h2] at h
      by_cases h3 : "*" ∈ d
      · rw [if_pos h3] at h
        obtain rfl := Option.some.inj h
        have hv : "*" ≠ v := fun e => h1 (e ▸ h3)
        refine ⟨h3, 2, by simp [rank, hv], ?_⟩
        intro l' hl' n' hn
        unfold rank at hn
        split at hn
        · rename_i e; exact absurd (e ▸ hl') h1
        · split at hn
          · rename_i e; exact absurd (e ▸ hl') h2
          · split at hn
            · rename_i e; simp only [Option.some.injEq] at hn; exact ⟨by omega, fun _ => e.symm⟩
            · simp at hn
      · rw [if_neg h3] at h; simp at h

theorem getItem_some_of {d : List String} {v l : String} (h : l ∈ d) (hr : (rank v l).isSome) : (getItem d v).isSome := by
  unfold getItem
  unfold rank at hr
  split at hr
  · rename_i e; subst e; rw [if_pos h]; rfl
  · split at hr
    · rename_i e; subst e; split
      · rfl
      · rfl
    · split at hr
      · rename_i e; subst e; split
        · rfl
        · split
          · rfl
          · rfl
      · simp at hr

/-- The first type considered for a job (oar/kao/quotas.py:676-681). -/
def firstType (jobTypes : List String) (j : QJob) : Option String := (j.types ++ jobTypes).head?

/-- **C17** (when a rule is found). The rule found for a job is a rule of the table that concerns the job (seen with
its first type), and no rule that concerns it is more specific, comparing queues first, then projects, types and users;
the counter it limits is that of the job's own queue, project or user wherever the rule says `/`. -/
theorem rule_most_specific (jobTypes : List String) (rules : Rules) (j : QJob) (rl : Cnt) (k : Key) (jt : String)
    (hjt : firstType jobTypes j = some jt) (h : findApplicable jobTypes rules j = some (rl, k)) :
    ∃ rk, (rk, rl) ∈ rules ∧
      k = ⟨if rk.queue = "/" then j.queue else rk.queue, if rk.project = "/" then j.project else rk.project, rk.type,
        if rk.user = "/" then j.user else rk.user⟩ ∧
      ∃ x, ranks j jt rk = some x ∧ ∀ r ∈ rules, ∀ y, ranks j jt r.1 = some y → LexLe x y := by
  unfold findApplicable at h
  cases e1 : getItem (rules.map (·.1.queue)) j.queue with
  | none => rw [e1] at h; simp at h
  | some kq =>
    rw [e1] at h; dsimp only at h
    cases e2 : getItem ((rules.filter (fun r => decide (r.1.queue = kq))).map (·.1.project)) j.project with
    | none => rw [e2] at h; simp at h
    | some kp =>
      rw [e2] at h; dsimp only at h
      cases e3 : j.types ++ jobTypes with
      | nil => rw [e3] at h; simp at h
      | cons jt' rest =>
        have : jt' = jt := by unfold firstType at hjt; rw [e3] at hjt; simpa using hjt
        subst this
        rw [e3] at h; dsimp only at h
        cases e4 : getItem (((rules.filter (fun r => decide (r.1.queue = kq))).filter
            (fun r => decide (r.1.project = kp))).map (·.1.type)) jt' with
        | none => rw [e4] at h; simp at h
        | some kt =>
          rw [e4] at h; dsimp only at h
          cases e5 : getItem ((((rules.filter (fun r => decide (r.1.queue = kq))).filter
              (fun r => decide (r.1.project = kp))).filter (fun r => decide (r.1.type = kt))).map (·.1.user)) j.user with
          | none => rw [e5] at h; simp at h
          | some ku =>
            rw [e5] at h; dsimp only at h
            cases e6 : (((rules.filter (fun r => decide (r.1.queue = kq))).filter
                (fun r => decide (r.1.project = kp))).filter (fun r => decide (r.1.type = kt))).find?
                  (fun r => decide (r.1.user = ku)) with
            | none => rw [e6] at h; simp at h
            | some r =>
              rw [e6] at h
              simp only [Option.some.injEq, Prod.mk.injEq] at h
              obtain ⟨rfl, rfl⟩ := h
              have hm := List.mem_of_find?_eq_some e6
              have hu := List.find?_some e6
              simp only [List.mem_filter, decide_eq_true_eq] at hm hu
              obtain ⟨⟨⟨m1, m2⟩, m3⟩, m4⟩ := hm
              obtain ⟨_, a, a1, a2⟩ := getItem_spec e1
              obtain ⟨_, b, b1, b2⟩ := getItem_spec e2
              obtain ⟨_, c, c1, c2⟩ := getItem_spec e4
              obtain ⟨_, d, d1, d2⟩ := getItem_spec e5
              refine ⟨r.1, m1, ?_, (a, b, c, d), ?_, ?_⟩
              · rw [m2, m3, m4, hu]
              · unfold ranks; rw [m2, m3, m4, hu, a1, b1, c1, d1]
              · intro r' hr' y hy
                unfold ranks at hy
                split at hy
                · rename_i a' b' c' d' f1 f2 f3 f4
                  simp only [Option.some.injEq] at hy
                  subst hy
                  unfold LexLe
                  dsimp only
                  obtain ⟨g1, g2⟩ := a2 _ (List.mem_map_of_mem (f := fun r : Key × Cnt => r.1.queue) hr') a' f1
                  by_cases ha : a = a'
                  · refine Or.inr ⟨ha, ?_⟩
                    have hq : r' ∈ rules.filter (fun r => decide (r.1.queue = kq)) := by
                      rw [List.mem_filter]; exact ⟨hr', by simpa using (g2 ha).symm⟩
                    obtain ⟨g3, g4⟩ := b2 _ (List.mem_map_of_mem (f := fun r : Key × Cnt => r.1.project) hq) b' f2
                    by_cases hb : b = b'
                    · refine Or.inr ⟨hb, ?_⟩
                      have hp : r' ∈ (rules.filter (fun r => decide (r.1.queue = kq))).filter
                          (fun r => decide (r.1.project = kp)) := by
                        rw [List.mem_filter]; exact ⟨hq, by simpa using (g4 hb).symm⟩
                      obtain ⟨g5, g6⟩ := c2 _ (List.mem_map_of_mem (f := fun r : Key × Cnt => r.1.type) hp) c' f3
                      by_cases hc : c = c'
                      · refine Or.inr ⟨hc, ?_⟩
                        have ht : r' ∈ ((rules.filter (fun r => decide (r.1.queue = kq))).filter
                            (fun r => decide (r.1.project = kp))).filter (fun r => decide (r.1.type = kt)) := by
                          rw [List.mem_filter]; exact ⟨hp, by simpa using (g6 hc).symm⟩
                        exact (d2 _ (List.mem_map_of_mem (f := fun r : Key × Cnt => r.1.user) ht) d' f4).1
                      · left; omega
                    · left; omega
                  · left; omega
                · simp at hy

/-- Each branch of the rule table can be completed: whenever a rule concerns the job by its first labels, some rule
with the same first labels concerns it by the next one too. -/
def Completable (j : QJob) (jt : String) (rules : Rules) : Prop :=
  (∃ r ∈ rules, (rank j.queue r.1.queue).isSome) ∧
  (∀ r ∈ rules, ∃ r' ∈ rules, r'.1.queue = r.1.queue ∧ (rank j.project r'.1.project).isSome) ∧
  (∀ r ∈ rules, ∃ r' ∈ rules, r'.1.queue = r.1.queue ∧ r'.1.project = r.1.project ∧ (rank jt r'.1.type).isSome) ∧
  (∀ r ∈ rules, ∃ r' ∈ rules, r'.1.queue = r.1.queue ∧ r'.1.project = r.1.project ∧ r'.1.type = r.1.type ∧
    (rank j.user r'.1.user).isSome)

/-- **C17, partial.** A rule is found when each branch of the table can be completed (for instance by a `*` entry).
Missing: tables with dead ends, in which a matching rule may be missed, see `rule_missed_violated`. -/
theorem rule_found_partial (jobTypes : List String) (rules : Rules) (j : QJob) (jt : String)
    (hjt : firstType jobTypes j = some jt) (hc : Completable j jt rules) :
    (findApplicable jobTypes rules j).isSome := by
  obtain ⟨⟨r0, h0, h0'⟩, c1, c2, c3⟩ := hc
  unfold findApplicable
  obtain ⟨kq, e1⟩ := Option.isSome_iff_exists.1
    (getItem_some_of (List.mem_map_of_mem (f := fun r : Key × Cnt => r.1.queue) h0) h0')
  rw [e1]; dsimp only
  obtain ⟨ra, ha, ha'⟩ := List.mem_map.1 (getItem_spec e1).1
  obtain ⟨rb, hb, hb1, hb2⟩ := c1 ra ha
  have hb' : rb ∈ rules.filter (fun r => decide (r.1.queue = kq)) := by
    rw [List.mem_filter]; exact ⟨hb, by simp only [decide_eq_true_eq]; rw [hb1]; exact ha'⟩
  obtain ⟨kp, e2⟩ := Option.isSome_iff_exists.1
    (getItem_some_of (List.mem_map_of_mem (f := fun r : Key × Cnt => r.1.project) hb') hb2)
  rw [e2]; dsimp only
  obtain ⟨rc, hc0, hc'⟩ := List.mem_map.1 (getItem_spec e2).1
  rw [List.mem_filter] at hc0
  obtain ⟨rd, hd, hd1, hd2, hd3⟩ := c2 rc hc0.1
  have hq : rc.1.queue = kq := by simpa using hc0.2
  cases e3 : j.types ++ jobTypes with
  | nil => unfold firstType at hjt; rw [e3] at hjt; simp at hjt
  | cons jt' rest =>
    have : jt' = jt := by unfold firstType at hjt; rw [e3] at hjt; simpa using hjt
    subst this
    dsimp only
    have hd' : rd ∈ (rules.filter (fun r => decide (r.1.queue = kq))).filter (fun r => decide (r.1.project = kp)) := by
      simp only [List.mem_filter, decide_eq_true_eq]
      exact ⟨⟨hd, hd1.trans hq⟩, hd2.trans hc'⟩
    obtain ⟨kt, e4⟩ := Option.isSome_iff_exists.1
      (getItem_some_of (List.mem_map_of_mem (f := fun r : Key × Cnt => r.1.type) hd') hd3)
    rw [e4]; dsimp only
    obtain ⟨re, he, he'⟩ := List.mem_map.1 (getItem_spec e4).1
    simp only [List.mem_filter, decide_eq_true_eq] at he
    obtain ⟨rf, hf, hf1, hf2, hf3, hf4⟩ := c3 re he.1.1
    have hf' : rf ∈ ((rules.filter (fun r => decide (r.1.queue = kq))).filter
        (fun r => decide (r.1.project = kp))).filter (fun r => decide (r.1.type = kt)) := by
      simp only [List.mem_filter, decide_eq_true_eq]
      exact ⟨⟨⟨hf, hf1.trans he.1.2⟩, hf2.trans he.2⟩, hf3.trans he'⟩
    obtain ⟨ku, e5⟩ := Option.isSome_iff_exists.1
      (getItem_some_of (List.mem_map_of_mem (f := fun r : Key × Cnt => r.1.user) hf') hf4)
    rw [e5]; dsimp only
    obtain ⟨rg, hg, hg'⟩ := List.mem_map.1 (getItem_spec e5).1
    cases e6 : (((rules.filter (fun r => decide (r.1.queue = kq))).filter
        (fun r => decide (r.1.project = kp))).filter (fun r => decide (r.1.type = kt))).find?
          (fun r => decide (r.1.user = ku)) with
    | none => exact absurd hg' (by simpa using List.find?_eq_none.1 e6 rg hg)
    | some r => rfl

/-- Without a rule there is no limit. -/
theorem no_rule_no_limit (jobTypes : List String) (rules : Rules) (c : Counters) (j : QJob)
    (h : findApplicable jobTypes rules j = none) : check jobTypes rules c j = none := by
  unfold check; rw [h]

/-- A rule limited to project `x` of the default queue and a rule for everybody. -/
def rulesDead : Rules := [(⟨"default", "x", "*", "*"⟩, ⟨10, -1, -1⟩), (⟨"*", "*", "*", "*"⟩, ⟨5, -1, -1⟩)]

/-- **C17, violated.** The rule `*,*,*,*` concerns the jobs of project `prj`, yet none is applied to them: the walk of
the rule tree enters the branch of the queue `default`, which has no entry for the project, and does not come back. -/
theorem rule_missed_violated : findApplicable ["*"] rulesDead mary = none ∧
    ∃ r ∈ rulesDead, (ranks mary "*" r.1).isSome := by decide

-- the hypotheses of both theorems
example : Completable mary "*" [(⟨"*", "*", "*", "*"⟩, ⟨5, -1, -1⟩), (⟨"*", "*", "*", "/"⟩, ⟨3, 1, -1⟩)] ∧
    findApplicable ["*"] [(⟨"*", "*", "*", "*"⟩, ⟨5, -1, -1⟩), (⟨"*", "*", "*", "/"⟩, ⟨3, 1, -1⟩)] mary =
      some (⟨3, 1, -1⟩, ⟨"*", "*", "*", "mary"⟩) := by
  unfold Completable; decide

/-! ## C15 : the limits are respected -/

theorem checkLimits_none {rl c : Cnt} (h : checkLimits rl c = none) :
    Within rl.res c.res ∧ Within rl.jobs c.jobs ∧ Within rl.time c.time := by
  unfold checkLimits at h
  split at h
  · simp at h
  · split at h
    · simp at h
    · split at h
      · simp at h
      · refine ⟨?_, ?_, ?_⟩ <;> unfold Within <;> omega

theorem lookup_addAll_isSome (d : Cnt) (k : Key) : ∀ (ks : List Key) (c : Counters), k ∈ ks ∨ (c.lookup k).isSome →
    ((ks.foldl (fun c k => addTo k d c) c).lookup k).isSome
  | [], c, h => by simpa using h
  | k0 :: ks, c, h => by
    rw [List.foldl_cons]
    apply lookup_addAll_isSome d k ks
    rw [lookup_addTo]
    rcases h with h | h
    · rcases List.mem_cons.1 h with rfl | h
      · right; rw [if_pos rfl]; rfl
      · exact Or.inl h
    · right; split
      · rfl
      · exact h

theorem check_none {jobTypes : List String} {rules : Rules} {c : Counters} {j : QJob} {nb dur : Int} {rl : Cnt} {k : Key}
    (h : check jobTypes rules (update jobTypes j nb dur c) j = none) (ha : findApplicable jobTypes rules j = some (rl, k))
    (hk : InClass jobTypes j k) :
    Within rl.res (value (update jobTypes j nb dur c) k).res ∧ Within rl.jobs (value (update jobTypes j nb dur c) k).jobs ∧
    Within rl.time (value (update jobTypes j nb dur c) k).time := by
  unfold check at h
  rw [ha] at h
  dsimp only at h
  have hs : ((update jobTypes j nb dur c).lookup k).isSome := by
    rw [update_eq]; exact lookup_addAll_isSome _ _ _ _ (Or.inl (mem_allKeys.2 hk))
  obtain ⟨v, hv⟩ := Option.isSome_iff_exists.1 hs
  rw [hv] at h
  have : value (update jobTypes j nb dur c) k = v := by unfold value; rw [hv]; rfl
  rw [this]
  exact checkLimits_none h

theorem Within.mono {l a b : Int} (h : Within l b) (hab : a ≤ b) : Within l a := by
  unfold Within at *; omega

/-- **C15.** If the quota check of a window accepts a job, then in every slot of the window the counters, once the job
is counted, do not exceed the limits of the rule that applies to the job (in the rule set of the slot): busy
resources, running jobs and resource-time, the latter being summed over all the slots of the window under the same
rule set. The counter of the rule must be one in which the job is counted, see `type_quota_ignored_violated`. -/
theorem accepted_within_quotas_partial (env : Env) (slots : List SlotQuotas) (j : QJob) (nb dur : Int) (h1 : 0 ≤ nb)
    (h2 : 0 ≤ dur) (hs : ∀ q ∈ slots, Keyed q.counters ∧ NonNeg q.counters)
    (h : checkSlots env slots j nb dur = none) (q : SlotQuotas) (hq : q ∈ slots) (rl : Cnt) (k : Key)
    (ha : findApplicable env.jobTypes (rulesOf env slots q.rulesId) j = some (rl, k)) (hk : InClass env.jobTypes j k) :
    Within rl.res (value (update env.jobTypes j nb dur q.counters) k).res ∧
    Within rl.jobs (value (update env.jobTypes j nb dur q.counters) k).jobs ∧
    Within rl.time (value (update env.jobTypes j nb dur q.counters) k).time ∧
    Within rl.time (((slots.filter (fun q' => q'.rulesId = q.rulesId)).map (fun q' => (value q'.counters k).time)).sum +
      nb * dur) := by
  have hg := groups_ok env slots [] [] (groups_nil env) hs
  rw [List.nil_append] at hg
  obtain ⟨x, hx, hxi⟩ := hg.has q hq
  unfold checkSlots at h
  rw [List.findSome?_eq_none_iff] at h
  have hc := h x hx
  rw [hg.rules x hx, hxi] at hc
  obtain ⟨w1, w2, w3⟩ := check_none hc ha hk
  rw [value_update] at w1 w2 w3 ⊢
  have r1 := hg.res x hx q hq hxi.symm k
  have r2 := hg.jobs x hx q hq hxi.symm k
  have r3 := hg.time x hx k
  rw [hxi] at r3
  have hcount : 1 ≤ (allKeys env.jobTypes j).count k := List.count_pos_iff.2 (mem_allKeys.2 hk)
  have r4 : (value q.counters k).time ≤ (value x.2.2 k).time := by
    rw [r3]
    have hmem : (value q.counters k).time ∈ (slots.filter (fun q' => decide (q'.rulesId = q.rulesId))).map
        (fun q' => (value q'.counters k).time) :=
      List.mem_map_of_mem (f := fun q' : SlotQuotas => (value q'.counters k).time)
        (List.mem_filter.2 ⟨hq, by simp⟩)
    have hnn : ∀ y ∈ (slots.filter (fun q' => decide (q'.rulesId = q.rulesId))).map
        (fun q' => (value q'.counters k).time), 0 ≤ y := by
      intro y hy
      obtain ⟨q', hq', rfl⟩ := List.mem_map.1 hy
      exact ((hs q' (List.mem_filter.1 hq').1).2 k).2.2
    generalize (slots.filter (fun q' => decide (q'.rulesId = q.rulesId))).map
        (fun q' => (value q'.counters k).time) = L at hmem hnn
    clear w1 w2 w3 r3
    induction L with
    | nil => simp at hmem
    | cons y L ih =>
      have hs' : 0 ≤ L.sum := by
        clear ih hmem
        have : ∀ y ∈ L, 0 ≤ y := fun y hy => hnn y (by simp [hy])
        clear hnn
        induction L with
        | nil => simp
        | cons z L ih =>
          have := ih (fun y hy => this y (by simp [hy]))
          have := ‹∀ y ∈ z :: L, 0 ≤ y› z (by simp)
          rw [List.sum_cons]; omega
      rw [List.sum_cons]
      rcases List.mem_cons.1 hmem with e | hm
      · omega
      · have := ih hm (fun y hy => hnn y (by simp [hy]))
        have := hnn y (by simp)
        omega
  refine ⟨w1.mono (by simp only [add_res]; omega), w2.mono (by simp only [add_jobs]; omega),
    w3.mono (by simp only [add_time]; omega), w3.mono ?_⟩
  simp only [add_time, nsmul_time, r3]
  have h3 : 0 ≤ nb * dur := Int.mul_nonneg h1 h2
  have : 1 * (nb * dur) ≤ ((allKeys env.jobTypes j).count k : Int) * (nb * dur) :=
    Int.mul_le_mul_of_nonneg_right (by omega) h3
  omega

/-- At most two resources for besteffort jobs, the types `besteffort` and `deploy` being counted. -/
def envBe : Env := ⟨true, [(⟨"*", "*", "besteffort", "*"⟩, ⟨2, -1, -1⟩), (⟨"*", "*", "*", "*"⟩, ⟨-1, -1, -1⟩)],
  ["*", "besteffort", "deploy"], ∅⟩

/-- **C15, violated.** Only the first type of a job selects the rule: a job of types `deploy` and `besteffort` is
accepted with 100 resources although besteffort jobs are limited to 2; the same job with only the type `besteffort` is
refused. -/
theorem type_quota_ignored_violated :
    checkSlots envBe [⟨[], envBe.defaultRules, -1⟩] ⟨"default", "prj", ["deploy", "besteffort"], "john"⟩ 100 60 = none ∧
    (value (update envBe.jobTypes ⟨"default", "prj", ["deploy", "besteffort"], "john"⟩ 100 60 [])
      ⟨"*", "*", "besteffort", "*"⟩).res = 100 ∧
    checkSlots envBe [⟨[], envBe.defaultRules, -1⟩] ⟨"default", "prj", ["besteffort"], "john"⟩ 100 60 = some (1, 2) := by
  decide

-- the hypotheses: a first job of john is counted in the slot, a second one fits
example : checkSlots envBe [⟨update envBe.jobTypes john 1 60 [], envBe.defaultRules, -1⟩] john 1 60 = none ∧
    findApplicable envBe.jobTypes (rulesOf envBe [⟨update envBe.jobTypes john 1 60 [], envBe.defaultRules, -1⟩] (-1)) john =
      some (⟨2, -1, -1⟩, ⟨"*", "*", "besteffort", "*"⟩) ∧
    InClass envBe.jobTypes john ⟨"*", "*", "besteffort", "*"⟩ ∧
    checkSlots envBe [⟨update envBe.jobTypes john 1 60 [], envBe.defaultRules, -1⟩] john 2 60 = some (1, 2) := by decide

end Oar.Quotas
