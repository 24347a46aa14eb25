import Verif.DetailsMain

/-!
# The routes that tell about jobs
-/

namespace Oar.Details

open Oar.Tools

variable {db : Db} {le : T → T → Bool} {page : List Job} {f : Found} {j : Job}

theorem mapM_all {α β : Type} {g : α → Option β} {P : α → β → Prop} : ∀ l : List α, (∀ a ∈ l, ∃ b, g a = some b ∧ P a b) →
    ∃ bs, l.mapM g = some bs ∧ bs.length = l.length ∧ ∀ n (h : n < l.length) (h' : n < bs.length), P l[n] bs[n]
  | [], _ => ⟨[], rfl, rfl, fun n h => absurd h (Nat.not_lt_zero n)⟩
  | a :: l, h => by
    obtain ⟨b, hb, hp⟩ := h a List.mem_cons_self
    obtain ⟨bs, h1, h2, h3⟩ := mapM_all l (fun x hx => h x (List.mem_cons_of_mem _ hx))
    refine ⟨b :: bs, by rw [List.mapM_cons, hb, h1]; rfl, by simp [h2], ?_⟩
    intro n hn hn'
    cases n with
    | zero => exact hp
    | succ n => exact h3 n (by simpa using hn) (by simpa using hn')

/-- **C114.** `GET /jobs` with details: one item for each job of the page, in the same order, that tells the columns, the resources, the nodes, the events, the walltime, the types and the request of this
job, whatever the other jobs of the page and the order in which the database gives the rows. -/
theorem list_exact (h : db.Ok) (hp : ∀ j ∈ page, j ∈ db.jobs) {details : T} (hd : details ≠ []) (a : Answer db le (page.map Job.id) f) :
    ∃ items, list (some details) page f = some items ∧ items.length = page.length ∧
      ∀ n (h1 : n < page.length) (h2 : n < items.length), TellsColumns columns page[n] items[n] ∧ TellsDetails db le page[n] items[n] := by
  unfold list
  rw [if_pos (show (some details).getD [] ≠ [] from hd)]
  have ht := tables_eq a
  rw [ht]
  exact mapM_all page (fun j hj => item_tells h a (hp j hj) (List.mem_map_of_mem hj) ht)

/-- **C114.** Without details each item tells seven columns, the status, and nothing else. -/
theorem list_short (page : List Job) (f : Found) (details : Option T) (hd : details.getD [] = []) :
    ∃ items, list details page f = some items ∧ items.length = page.length ∧
      ∀ n (h1 : n < page.length) (h2 : n < items.length), TellsColumns shortColumns page[n] items[n] ∧ ∀ k, items[n] k ≠ none → k ∈ shortColumns ∨ k = "exit_status_code" := by
  unfold list
  rw [if_neg (fun h => h hd)]
  refine mapM_all (P := fun j d => TellsColumns shortColumns j d ∧ ∀ k, d k ≠ none → k ∈ shortColumns ∨ k = "exit_status_code") page ?_
  intro j _
  refine ⟨_, rfl, tells_columns (by decide) (fun _ _ => rfl), ?_⟩
  intro k hk
  by_cases e1 : k ∈ shortColumns
  · exact .inl e1
  by_cases e2 : k = "exit_status_code"
  · exact .inr e2
  exfalso
  apply hk
  have ha : ∀ k, k ∉ shortColumns → k ≠ "exit_status_code" → attachExit (asdict shortColumns j) k = none := by
    intro k h1 h2
    rw [attachExit_eq, if_neg h2]
    unfold asdict
    rw [if_neg h1]
  have hb : base shortColumns j k = none := by
    unfold base macros
    have h1 := ha "stdout_file" (by decide) (by decide)
    have h2 := ha "stderr_file" (by decide) (by decide)
    have h3 : ∀ k', attachExit (asdict shortColumns j) k' = none → macroOf "stderr_file" j.id (attachExit (asdict shortColumns j)) k' = none := by
      intro k' hk'
      rw [macroOf_get]
      split
      · rw [h2]
      · exact hk'
    rw [macroOf_get]
    split
    · rw [h3 _ h1]
    · exact h3 _ (ha k e1 e2)
  show removeNull (base shortColumns j) k = none
  unfold removeNull
  rw [hb, if_neg (by simp)]

theorem find_job (h : db.Ok) (hj : j ∈ db.jobs) : db.jobs.find? (fun k => k.id == j.id) = some j := by
  have hn := h.jobs
  generalize db.jobs = l at hn hj
  induction l with
  | nil => simp at hj
  | cons k l ih =>
    rw [List.map_cons, List.nodup_cons] at hn
    rw [List.find?_cons]
    rcases List.mem_cons.1 hj with rfl | hj
    · simp
    · have : (k.id == j.id) = false := beq_eq_false_iff_ne.2 (fun e => hn.1 (e ▸ List.mem_map_of_mem hj))
      rw [this]
      exact ih hn.2 hj

/-- **C114.** `GET /jobs/{id}` with details tells the same about a job. -/
theorem one_exact (h : db.Ok) (hj : j ∈ db.jobs) {details : T} (hd : readBool details = some true) (a : Answer db le [j.id] f) :
    ∃ d, one db (some details) j.id f = .ok d ∧ TellsColumns columns j d ∧ TellsDetails db le j d := by
  obtain ⟨d, h1, h2, h3⟩ := item_tells h a hj List.mem_cons_self (tables_eq a)
  refine ⟨d, ?_, h2, h3⟩
  unfold one
  rw [Option.map_some, hd]
  dsimp only
  rw [find_job h hj]
  dsimp only
  rw [if_pos rfl, tables_eq a]
  dsimp only
  rw [h1]

/-- **C114.** Without details the columns of the job are told. -/
theorem one_short (h : db.Ok) (hj : j ∈ db.jobs) {details : Option T} (hd : details = none ∨ details.map readBool = some (some false)) (f : Found) :
    ∃ d, one db details j.id f = .ok d ∧ TellsColumns columns j d := by
  refine ⟨removeNull (base columns j), ?_, tells_columns (by decide) (fun _ _ => rfl)⟩
  unfold one
  rcases hd with rfl | hd
  · rw [Option.map_none]
    dsimp only
    rw [find_job h hj]
    dsimp only
    rw [if_neg (by simp)]
    rfl
  · rw [hd]
    dsimp only
    rw [find_job h hj]
    dsimp only
    rw [if_neg (by simp)]
    rfl

/-- **C114.** The list and the view of one job agree: what two answers tell of the same job is the same, up to the order of the resources, nodes and events. -/
theorem views_agree {d d' : Dict} (c : TellsColumns columns j d) (c' : TellsColumns columns j d') (t : TellsDetails db le j d) (t' : TellsDetails db le j d') :
    (∀ k ∈ "exit_status_code" :: "walltime" :: columns, d k = d' k) ∧
    (∃ l l', d "resources" = some (.ids l) ∧ d' "resources" = some (.ids l') ∧ l.Perm l') ∧
    (∃ l l', d "nodes" = some (.nodes l) ∧ d' "nodes" = some (.nodes l') ∧ l.Perm l') ∧
    (∃ l l', d "events" = some (.events l) ∧ d' "events" = some (.events l') ∧ l.Perm l') := by
  refine ⟨?_, ?_, ?_, ?_⟩
  · intro k hk
    rcases List.mem_cons.1 hk with rfl | hk
    · rw [c.status (by decide), c'.status (by decide)]
    rcases List.mem_cons.1 hk with rfl | hk
    · have h1 := t.walltime
      have h2 := t'.walltime
      apply Option.ext
      intro w
      rw [h1, h2]
    by_cases e1 : k = "stdout_file"
    · subst e1
      rw [c.out hk, c'.out hk]
    by_cases e2 : k = "stderr_file"
    · subst e2
      rw [c.err hk, c'.err hk]
    rw [c.columns k hk e1 e2, c'.columns k hk e1 e2]
  · obtain ⟨l, h1, h2⟩ := t.resources
    obtain ⟨l', h1', h2'⟩ := t'.resources
    exact ⟨l, l', h1, h1', h2.trans h2'.symm⟩
  · obtain ⟨l, h1, h2, h3⟩ := t.nodes
    obtain ⟨l', h1', h2', h3'⟩ := t'.nodes
    exact ⟨l, l', h1, h1', (List.perm_ext_iff_of_nodup h2 h2').2 (fun a => (h3 a).trans (h3' a).symm)⟩
  · obtain ⟨l, h1, h2⟩ := t.events
    obtain ⟨l', h1', h2'⟩ := t'.events
    exact ⟨l, l', h1, h1', h2.trans h2'.symm⟩

/-- **C114, violated.** The view of a job that does not exist raises (500): the answer "Job not found" (404) is never given. -/
theorem one_unknown_violated (db : Db) (details : Option T) (id : Nat) (f : Found) :
    one db details id f ≠ .notFound ∧ ((∀ j ∈ db.jobs, j.id ≠ id) → details.map readBool ≠ some none → one db details id f = .raises) := by
  constructor
  · unfold one
    split
    · simp
    · split
      · simp
      · split
        · split
          · simp
          · split <;> simp
        · split <;> simp
  · intro h hd
    have : db.jobs.find? (fun j => j.id == id) = none := by
      rw [List.find?_eq_none]
      intro j hj
      simpa using h j hj
    unfold one
    split
    · rename_i e
      exact absurd e hd
    · rw [this]

/-- **C114, violated.** In a list any text asks for the details: `details=false` gives what `details=true` gives, while the view of one job follows the text. -/
theorem details_false_violated (page : List Job) (f : Found) {t : T} (h : readBool t = some false) : list (some t) page f = list (some (txt "true")) page f := by
  have ht : t ≠ [] := by
    rintro rfl
    revert h
    decide
  unfold list
  rw [if_pos (show (some t).getD [] ≠ [] from ht), if_pos (by decide)]

example : readBool (txt "False") = some false := by decide

/-! ## The files -/

/-- No text that begins with something else than `%` begins with the macro. -/
theorem prefix_head {c : Char} {l : T} (h : c ≠ '%') : (txt "%jobid%").isPrefixOf (c :: l) = false := by
  have : (('%' : Char) == c) = false := beq_eq_false_iff_ne.2 (Ne.symm h)
  show (('%' == c) && _) = false
  rw [this]
  rfl

theorem replaceId_plain (id : T) : ∀ (x : T) (n : Nat) (l : T), '%' ∉ x → replaceId id (x.length + n) (x ++ l) = x ++ replaceId id n l
  | [], n, l, _ => by simp
  | c :: x, n, l, h => by
    rw [List.mem_cons, not_or] at h
    have e : (c :: x).length + n = (x.length + n) + 1 := by rw [List.length_cons]; omega
    rw [e]
    show (if (txt "%jobid%").isPrefixOf (c :: (x ++ l)) then _ else c :: replaceId id (x.length + n) (x ++ l)) = _
    rw [prefix_head (fun e => h.1 e.symm), if_neg (by simp), replaceId_plain id x n l h.2]
    rfl

theorem replaceId_fuel (id : T) : ∀ (n : Nat) (l : T), l.length ≤ n → replaceId id n l = replaceId id l.length l
  | 0, l, h => by
    have : l = [] := List.length_eq_zero_iff.1 (by omega)
    subst this
    rfl
  | n + 1, [], _ => rfl
  | n + 1, c :: l, h => by
    have hl : l.length ≤ n := by simpa using h
    show (if (txt "%jobid%").isPrefixOf (c :: l) then id ++ replaceId id n ((c :: l).drop 7) else c :: replaceId id n l) =
      (if (txt "%jobid%").isPrefixOf (c :: l) then id ++ replaceId id l.length ((c :: l).drop 7) else c :: replaceId id l.length l)
    have hd : ((c :: l).drop 7).length ≤ l.length := by simp
    rw [replaceId_fuel id n _ (Nat.le_trans hd hl), replaceId_fuel id l.length _ hd, replaceId_fuel id n l hl]
termination_by n l => n + l.length
decreasing_by all_goals (simp; try omega)

theorem replaceId_macro (id : T) (l : T) : replaceId id (txt "%jobid%" ++ l).length (txt "%jobid%" ++ l) = id ++ replaceId id l.length l := by
  have h1 : (txt "%jobid%" ++ l) = '%' :: (txt "jobid%" ++ l) := rfl
  have hp : (txt "%jobid%").isPrefixOf ('%' :: (txt "jobid%" ++ l)) = true := by
    rw [List.isPrefixOf_iff_prefix]
    exact ⟨l, rfl⟩
  rw [h1]
  show (if (txt "%jobid%").isPrefixOf ('%' :: (txt "jobid%" ++ l)) then id ++ replaceId id (txt "jobid%" ++ l).length l else _) = _
  rw [if_pos hp, replaceId_fuel id _ l (by simp)]

/-- **C114.** Every `%jobid%` of the name of a file is replaced by the identifier, and nothing else. -/
theorem file_name_exact (id : Nat) : ∀ pieces : List T, (∀ x ∈ pieces, '%' ∉ x) →
    replaceId (digits id) (joined (txt "%jobid%") pieces).length (joined (txt "%jobid%") pieces) = joined (digits id) pieces
  | [], _ => rfl
  | [x], h => by
    have := replaceId_plain (digits id) x 0 [] (h x List.mem_cons_self)
    simpa [joined, replaceId] using this
  | x :: y :: l, h => by
    have ih := file_name_exact id (y :: l) (fun z hz => h z (List.mem_cons_of_mem _ hz))
    show replaceId (digits id) (x ++ txt "%jobid%" ++ joined (txt "%jobid%") (y :: l)).length (x ++ txt "%jobid%" ++ joined (txt "%jobid%") (y :: l)) =
      x ++ digits id ++ joined (digits id) (y :: l)
    rw [List.append_assoc, List.length_append, replaceId_plain (digits id) x _ _ (h x List.mem_cons_self), replaceId_macro, ih, List.append_assoc]

example : replaceId (digits 42) (txt "OAR.%jobid%.stdout").length (txt "OAR.%jobid%.stdout") = txt "OAR.42.stdout" := file_name_exact 42 [txt "OAR.", txt ".stdout"] (by decide)

/-! ## The types -/

theorem set_get {β : Type} (k : T) (v : β) (k' : T) : ∀ d : List (T × β), (set k v d).lookup k' = if k' = k then some v else d.lookup k'
  | [] => by
    by_cases e : k' = k
    · simp [set, e]
    · have h1 : (k' == k) = false := beq_eq_false_iff_ne.2 e
      rw [if_neg e]
      show (match k' == k with | true => some v | false => List.lookup k' []) = _
      rw [h1]
  | p :: d => by
    unfold set
    by_cases e : p.1 = k
    · rw [if_pos e]
      by_cases e' : k' = k
      · simp [e']
      · have h1 : (k' == k) = false := beq_eq_false_iff_ne.2 e'
        have h2 : (k' == p.1) = false := beq_eq_false_iff_ne.2 (fun h => e' (h.trans e))
        rw [if_neg e', List.lookup_cons, List.lookup_cons, h1, h2]
    · rw [if_neg e, List.lookup_cons, List.lookup_cons, set_get k v k' d]
      by_cases e' : k' = p.1
      · have : k' ≠ k := fun h => e (e'.symm.trans h)
        have h3 : (k' == p.1) = true := by simp [e']
        rw [h3]
        dsimp only
        rw [if_neg this]
      · have h2 : (k' == p.1) = false := beq_eq_false_iff_ne.2 e'
        rw [h2]

theorem parse_get (k : T) : ∀ (l : List T) (d : List (T × TypeVal)), (l.foldl (fun d t => set (typeEntry t).1 (typeEntry t).2 d) d).lookup k =
    (((l.map typeEntry).filter (fun e => e.1 == k)).map Prod.snd).getLast?.or (d.lookup k)
  | [], d => by simp
  | t :: l, d => by
    rw [List.foldl_cons, parse_get k l, set_get, List.map_cons, List.filter_cons]
    by_cases e : k = (typeEntry t).1
    · rw [if_pos e, if_pos (by simp [e]), List.map_cons, List.getLast?_cons]
      cases h : (((l.map typeEntry).filter (fun e => e.1 == k)).map Prod.snd).getLast? <;> simp
    · rw [if_neg e, if_neg (by simpa using fun h => e h.symm)]

/-- **C114.** When the types of a job have different names, all of them are told, each with its value, whatever the order of the rows. -/
theorem types_exact {l : List T} (hn : (l.map (fun t => (typeEntry t).1)).Nodup) (k : T) (v : TypeVal) : (parseTypes l).lookup k = some v ↔ ∃ t ∈ l, typeEntry t = (k, v) := by
  unfold parseTypes
  rw [parse_get k l []]
  have h1 : (((l.map typeEntry).filter (fun e => e.1 == k)).map Prod.snd).length ≤ 1 := by
    rw [List.length_map]
    have hm : ((l.map typeEntry).map Prod.fst).Nodup := by rw [List.map_map]; exact hn
    generalize l.map typeEntry = es at hm
    induction es with
    | nil => simp
    | cons x es ih =>
      rw [List.map_cons, List.nodup_cons] at hm
      rw [List.filter_cons]
      split
      · rename_i e
        have e : x.1 = k := by simpa using e
        have : es.filter (fun e => e.1 == k) = [] := by
          rw [List.filter_eq_nil_iff]
          intro y hy e'
          have e' : y.1 = k := by simpa using e'
          exact hm.1 (by rw [e, ← e']; exact List.mem_map_of_mem hy)
        rw [this]
        simp
      · exact ih hm.2
  have h2 : ∀ x, x ∈ ((l.map typeEntry).filter (fun e => e.1 == k)).map Prod.snd ↔ ∃ t ∈ l, typeEntry t = (k, x) := by
    intro x
    simp only [List.mem_map, List.mem_filter]
    constructor
    · rintro ⟨e, ⟨⟨t, ht, rfl⟩, hk⟩, rfl⟩
      exact ⟨t, ht, Prod.ext (by simpa using hk) rfl⟩
    · rintro ⟨t, ht, e⟩
      exact ⟨(k, x), ⟨⟨t, ht, e⟩, by simp⟩, rfl⟩
  rw [← h2]
  clear h2
  generalize ((l.map typeEntry).filter (fun e => e.1 == k)).map Prod.snd = ws at h1 ⊢
  match ws, h1 with
  | [], _ => simp
  | [x], _ =>
    simp only [List.getLast?_singleton, Option.some_or, Option.some.injEq, List.mem_singleton]
    exact eq_comm
  | _ :: _ :: _, h => simp at h

/-- A text of letters, digits and `_`. -/
def IsWord (x : T) : Prop := x ≠ [] ∧ ∀ c ∈ x, c.isAlphanum = true ∨ c = '_'

instance (x : T) : Decidable (IsWord x) := inferInstanceAs (Decidable (_ ∧ _))

theorem isWord_iff (c : Char) : isWord c = true ↔ c.isAlphanum = true ∨ c = '_' := by unfold isWord; simp

theorem IsWord.all {x : T} (h : IsWord x) : ∀ c ∈ x, isWord c = true := fun c hc => (isWord_iff c).2 (h.2 c hc)

theorem take_all {p : Char → Bool} : ∀ {x l : T}, (∀ c ∈ x, p c = true) → (∀ c ∈ l.head?, p c = false) → (x ++ l).takeWhile p = x ∧ (x ++ l).dropWhile p = l
  | [], [], _, _ => ⟨rfl, rfl⟩
  | [], c :: l, _, h => by
    have := h c rfl
    simp [this]
  | c :: x, l, h, h' => by
    have hc := h c List.mem_cons_self
    obtain ⟨h1, h2⟩ := take_all (fun d hd => h d (List.mem_cons_of_mem _ hd)) h'
    rw [List.cons_append, List.takeWhile_cons, List.dropWhile_cons, if_pos hc, if_pos hc, h1, h2]
    exact ⟨rfl, rfl⟩

theorem word_not_space {c : Char} (h : isWord c = true) : isSpace c = false := by
  unfold isSpace
  simp only [Bool.or_eq_false_iff, beq_eq_false_iff_ne]
  refine ⟨⟨⟨⟨⟨?_, ?_⟩, ?_⟩, ?_⟩, ?_⟩, ?_⟩
  · rintro rfl; revert h; decide
  · rintro rfl; revert h; decide
  · rintro rfl; revert h; decide
  · rintro rfl; revert h; decide
  · intro e
    have : c = Char.ofNat 11 := by rw [← e, Char.ofNat_toNat]
    subst this
    revert h
    decide
  · intro e
    have : c = Char.ofNat 12 := by rw [← e, Char.ofNat_toNat]
    subst this
    revert h
    decide

theorem skip_id {l : T} (h : ∀ c ∈ l.head?, isSpace c = false) : skip l = l := (take_all (x := []) (by simp) h).2

theorem word_skip {x l : T} (h : IsWord x) : skip (x ++ l) = x ++ l := by
  apply skip_id
  obtain ⟨h1, h2⟩ := h
  cases x with
  | nil => exact absurd rfl h1
  | cons c x =>
    intro d hd
    simp at hd
    exact hd ▸ word_not_space ((isWord_iff c).2 (h2 c List.mem_cons_self))

theorem word_eq {x l : T} (h : IsWord x) (hl : ∀ c ∈ l.head?, isWord c = false) : word (x ++ l) = some (x, l) := by
  obtain ⟨h1, h2⟩ := take_all h.all hl
  unfold word
  rw [h1, h2, if_neg h.1]

/-- A text whose first character is not one of a word is not a token unless it has a colon. -/
theorem token_none {l : T} (h : ':' ∉ l) : token l = none := by
  have hs : ∀ l : T, ':' ∉ l → expect ':' (skip l) = none := by
    intro l h
    have : ':' ∉ skip l := fun hm => h ((List.dropWhile_sublist _).mem hm)
    cases e : skip l with
    | nil => rfl
    | cons c r =>
      show (if c = ':' then some r else none) = none
      rw [if_neg]
      intro hc
      rw [e, hc] at this
      exact this List.mem_cons_self
  unfold token
  dsimp only [bind, Option.bind]
  by_cases hp : (txt "token").isPrefixOf (skip l) = true
  · rw [if_pos hp]
    rw [hs ((skip l).drop 5) (fun hm => h ((List.dropWhile_sublist _).mem ((List.drop_sublist _ _).mem hm)))]
  · rw [if_neg hp]

theorem word_no_colon {x : T} (h : IsWord x) : ':' ∉ x := fun hm => by
  have := h.2 _ hm
  revert this
  decide

/-- **C114.** A type that is a word is told as true. -/
theorem plain_type {x : T} (h : IsWord x) : typeEntry x = (x, .yes) := by
  unfold typeEntry
  rw [token_none (word_no_colon h)]
  dsimp only
  have : assign x = none := by
    unfold assign
    have h1 := word_skip (l := []) h
    have h2 := word_eq (l := []) h (by simp)
    rw [List.append_nil] at h1 h2
    rw [h1, h2]
    rfl
  rw [this]

/-- **C114.** A type `name=value` is told as the value of the name. -/
theorem valued_type {x v : T} (h : IsWord x) (hv : v ≠ []) (hs : ∀ c ∈ v.head?, isSpace c = false) (hc : ':' ∉ v) : typeEntry (x ++ '=' :: v) = (x, .text v) := by
  unfold typeEntry
  rw [token_none (by
    rw [List.mem_append, not_or]
    refine ⟨word_no_colon h, ?_⟩
    rw [List.mem_cons, not_or]
    exact ⟨by decide, hc⟩)]
  dsimp only
  have : assign (x ++ '=' :: v) = some (x, v) := by
    unfold assign
    rw [word_skip h, word_eq h (by simp; decide)]
    dsimp only [bind, Option.bind]
    rw [skip_id (l := '=' :: v) (by simp; decide)]
    show (if skip v = [] then v.getLast?.map (fun c => (x, [c])) else some (x, skip v)) = _
    rw [skip_id hs, if_neg hv]
  rw [this]

/-- **C114.** A type `token:name=number` is told as the token of the name. -/
theorem token_type {x v : T} (h : IsWord x) (hv : v ≠ []) (hd : ∀ c ∈ v, c.isDigit = true) : typeEntry (txt "token:" ++ x ++ '=' :: v) = (txt "token", .token x v) := by
  have hdw : ∀ c : Char, c.isDigit = true → isWord c = true := by
    intro c h
    unfold isWord Char.isAlphanum
    rw [h]
    simp
  have : token (txt "token:" ++ x ++ '=' :: v) = some (x, v) := by
    have e0 : txt "token:" ++ x ++ '=' :: v = txt "token" ++ (':' :: (x ++ '=' :: v)) := by
      show (txt "token" ++ [':']) ++ x ++ '=' :: v = _
      simp
    have h0 : IsWord (txt "token") := by decide
    unfold token
    rw [e0, word_skip h0]
    have hp : (txt "token").isPrefixOf (txt "token" ++ (':' :: (x ++ '=' :: v))) = true := by
      rw [List.isPrefixOf_iff_prefix]
      exact ⟨_, rfl⟩
    have hdr : (txt "token" ++ (':' :: (x ++ '=' :: v))).drop 5 = ':' :: (x ++ '=' :: v) := rfl
    dsimp only [bind, Option.bind]
    rw [if_pos hp, hdr]
    rw [skip_id (l := ':' :: (x ++ '=' :: v)) (by simp; decide), show expect ':' (':' :: (x ++ '=' :: v)) = some (x ++ '=' :: v) from rfl]
    dsimp only
    rw [word_skip h, word_eq h (by simp; decide)]
    dsimp only
    rw [skip_id (l := '=' :: v) (by simp; decide)]
    show (if (skip v).takeWhile Char.isDigit = [] then none else if skip ((skip v).dropWhile Char.isDigit) = [] then some (x, (skip v).takeWhile Char.isDigit) else none) = _
    have hvw : IsWord v := ⟨hv, fun c hc => (isWord_iff c).1 (hdw c (hd c hc))⟩
    have hsv := word_skip (l := []) hvw
    rw [List.append_nil] at hsv
    have ht := take_all (x := v) (l := []) hd (by simp)
    rw [List.append_nil] at ht
    rw [hsv, ht.1, ht.2, if_neg hv]
    rfl
  unfold typeEntry
  rw [this]

/-- **C114, violated.** Of two tokens only one is told, the last row of the database. -/
theorem two_tokens_violated {x v y w : T} (hx : IsWord x) (hv : v ≠ []) (hdv : ∀ c ∈ v, c.isDigit = true) (hy : IsWord y) (hw : w ≠ []) (hdw : ∀ c ∈ w, c.isDigit = true) :
    parseTypes [txt "token:" ++ x ++ '=' :: v, txt "token:" ++ y ++ '=' :: w] = [(txt "token", .token y w)] := by
  unfold parseTypes
  simp only [List.foldl_cons, List.foldl_nil, token_type hx hv hdv, token_type hy hw hdw, set, if_true]

/-! ## An example -/

/-- Two jobs that were placed, the first on two resources of the same node. -/
def exampleDb : Db :=
  ⟨[⟨1, some 11, some 256, some (txt "OAR.%jobid%.stdout"), none, fun _ => some (txt "x")⟩, ⟨2, some 12, none, none, none, fun _ => none⟩], [(11, 5), (12, 7), (11, 6)],
   [⟨5, txt "n1"⟩, ⟨6, txt "n1"⟩, ⟨7, txt "n2"⟩], [⟨1, 1, 100, txt "A", [], []⟩, ⟨2, 2, 110, txt "B", [], []⟩], [(11, 3600), (12, 60)], [(1, txt "besteffort"), (2, txt "deploy"), (1, txt "token:soft=3")],
   ⟨[(1, 11, txt "gpu=1"), (2, 12, [])], [(1, 0, txt "host", 1), (2, 0, txt "core", 1)]⟩⟩

def exampleFound : Found :=
  ⟨[(1, ⟨6, txt "n1"⟩), (1, ⟨5, txt "n1"⟩), (2, ⟨7, txt "n2"⟩)], [(1, ⟨1, 1, 100, txt "A", [], []⟩), (2, ⟨2, 2, 110, txt "B", [], []⟩)], [(1, 3600), (2, 60)],
   [(1, txt "token:soft=3"), (1, txt "besteffort"), (2, txt "deploy")], [(2, ⟨[], 0, txt "core", 1⟩), (1, ⟨txt "gpu=1", 0, txt "host", 1⟩)]⟩

def exampleLe (a b : T) : Bool := decide (a.length ≤ b.length)

example : exampleDb.Ok := ⟨by decide, by decide, by decide⟩

example : Answer exampleDb exampleLe [1, 2] exampleFound := ⟨by decide, by decide, by decide, by decide, by decide, by decide, by decide⟩

example : ((list (some (txt "1")) exampleDb.jobs exampleFound).getD []).map (fun d => [d "nodes", d "resources", d "walltime", d "actual_resources", d "stdout_file", d "exit_status_code", d "message"]) =
    [[some (.nodes [txt "n1"]), some (.ids [6, 5]), some (.num 3600), some (.text (txt "{gpu=1}/host=1")), some (.text (txt "OAR.1.stdout")), some (.num 1), some (.text (txt "x"))],
     [some (.nodes [txt "n2"]), some (.ids [7]), some (.num 60), some (.text (txt "/core=1")), none, none, none]] := by decide +kernel

example : parseTypes [txt "token:a=1", txt "deploy", txt "timesharing=user,*", txt "token:b_c=2"] =
    [(txt "token", .token (txt "b_c") (txt "2")), (txt "deploy", .yes), (txt "timesharing", .text (txt "user,*"))] := by decide +kernel

end Oar.Details
